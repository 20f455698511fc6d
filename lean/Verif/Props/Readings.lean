import Verif.Props.Kinds
import Verif.Props.Frame
import Verif.Props.Commute
import Verif.Props.Backwards
import Verif.Spec.Readings
/-! # C108: which readings of a text are kept -/

namespace Chanoma

theorem append_self_nil {α : Type} {l : List α} (h : l = l ++ l) : l = [] := by
  have := congrArg List.length h
  rw [List.length_append] at this
  exact List.length_eq_zero_iff.1 (by omega)

theorem trim_flatMap {α : Type} (g : Char → List α) (h : g ' ' = []) (t : Str) :
    (trimModify t).flatMap g = t.flatMap g := by
  obtain ⟨a, b, e, -, -⟩ := trim_eq t
  have hs : ∀ n, (List.replicate n ' ').flatMap g = [] := fun n =>
    List.flatMap_eq_nil_iff.2 fun c hc => by rw [List.eq_of_mem_replicate hc, h]
  conv => rhs; rw [e]
  rw [List.flatMap_append, List.flatMap_append, hs, hs, List.nil_append, List.append_nil]

theorem keeps_does {α : Type} {g : Char → List α} {s : Step} (hl : ∀ r, s ≠ .ligature r) (h : KeepsReading g s)
    (t : Str) : reading g (s.does t) = reading g t := by
  cases s with
  | ligature r => exact absurd rfl (hl r)
  | convert l =>
    show (t.map (image l)).flatMap g = t.flatMap g
    rw [List.flatMap_map]
    exact congrArg (fun f => t.flatMap f) (funext h)
  | eliminate cs => exact filter_flatMap g _ (fun c hc => h c (by simpa using hc)) t
  | reduce c => exact squeeze_flatMap g h t
  | spaces => exact dGo_flatMap g h t false false
  | trim => exact trim_flatMap g h t
  | neologdn =>
    obtain ⟨h1, h2, h3, h4, h5⟩ := h
    refine (spec_flatMap g h2 h3 h4 h5 t).trans ?_
    rw [List.flatMap_map]
    exact congrArg (fun f => t.flatMap f) (funext h1)

theorem spec_single (c : Char) : neologdnSpec [c] =
    if neologdnFold c = ' ' ∨ neologdnFold c ∈ tildeChars then [] else [neologdnFold c] := by
  rw [neologdnSpec, ← dotted_eq, dotted_eq_dGo]
  by_cases h : neologdnFold c = ' '
  · simp [h, squeeze, dGo, composeMarks]
  · by_cases h' : neologdnFold c ∈ tildeChars
    · simp [h, h', squeeze, dGo, composeMarks]
    · simp [h, h', squeeze, dGo, composeMarks]

theorem does_keeps {α : Type} {g : Char → List α} {s : Step} (hl : ∀ r, s ≠ .ligature r)
    (h : ∀ t : Str, t.length ≤ 2 → reading g (s.does t) = reading g t) : KeepsReading g s := by
  have one : ∀ c, reading g (s.does [c]) = g c := fun c => (h [c] (by simp)).trans (by simp [reading])
  cases s with
  | ligature r => exact absurd rfl (hl r)
  | convert l => intro c; simpa [reading, Step.act] using one c
  | eliminate cs => intro c hc; simpa [reading, Step.act, hc] using (one c).symm
  | reduce c =>
    have := h [c, c] (by simp)
    simp only [Step.does, Step.act, squeeze_replicate c 1, show [c, c] = List.replicate 2 c from rfl] at this
    exact append_self_nil (by simpa [reading, List.replicate] using this)
  | spaces => exact (one ' ').symm
  | trim => exact (one ' ').symm
  | neologdn =>
    have one : ∀ c, reading g (neologdnSpec [c]) = g c := one
    have del : ∀ c, neologdnSpec [c] = [] → g c = [] := fun c hc => by rw [← one c, hc]; rfl
    have sp : g ' ' = [] := del ' ' (by decide +kernel)
    have td : ∀ c ∈ tildeChars, g c = [] := fun c hc => by
      have : ∀ c ∈ tildeChars, neologdnSpec [c] = [] := by decide +kernel
      exact del c (this c hc)
    refine ⟨fun c => ?_, sp, ?_, td, fun a m b hv => ?_⟩
    · have := one c
      rw [spec_single] at this
      split at this
      · rename_i hc
        rw [← this]
        rcases hc with hc | hc
        · rw [hc, sp]; rfl
        · rw [td _ hc]; rfl
      · simpa [reading] using this
    · have := h (c! "ーー") (by decide)
      rw [show Step.does .neologdn (c! "ーー") = c! "ー" by decide +kernel] at this
      exact append_self_nil (by simpa [reading] using this)
    · have key : ∀ r ∈ neologdnLigatures, neologdnSpec r.1 = r.2 := by decide +kernel
      have := h [a, m] (by simp)
      rw [show Step.does .neologdn [a, m] = [b] from key _ (voiced_cases hv)] at this
      simpa [reading] using this

/-- C108: a modifier that is no ligature translator keeps a reading of all texts exactly if it keeps that of all texts of
at most two characters, and exactly if what it puts in is read as what it replaces and what it deletes is not read. -/
theorem C108_modifiers {α : Type} (g : Char → List α) (σ : Oracle) (k v : YValue) (s : Step) (hd : Describes k v s)
    (hl : ∀ r, s ≠ .ligature r) :
    ∃ m, ModifierKind.fromYaml σ k v = .ok m ∧
      ((∀ τ text out, m.modify τ text = .ok out → reading g out = reading g text) ↔
        ∀ τ (text out : Str), text.length ≤ 2 → m.modify τ text = .ok out → reading g out = reading g text) ∧
      ((∀ τ text out, m.modify τ text = .ok out → reading g out = reading g text) ↔ KeepsReading g s) := by
  obtain ⟨m, h1, h2⟩ := describes_ok hd σ
  have hf : ∀ τ t, m.modify τ t = .ok (s.does t) := step_function hl h2.2
  have short : (∀ τ (text out : Str), text.length ≤ 2 → m.modify τ text = .ok out → reading g out = reading g text) →
      KeepsReading g s := fun h => does_keeps hl fun t ht => h .insertion t _ ht (hf _ _)
  have all : KeepsReading g s → ∀ τ text out, m.modify τ text = .ok out → reading g out = reading g text := by
    intro h τ text out ho
    rw [hf, Outcome.ok.injEq] at ho
    rw [← ho]
    exact keeps_does hl h text
  exact ⟨m, h1, ⟨fun h τ t o _ => h τ t o, fun h => all (short h)⟩, fun h => short fun τ t o _ => h τ t o, all⟩

/-- C108: a ligature translator keeps a reading if each of its rules has a key and a value that are read alike; if there
is one rule only, exactly then. -/
theorem C108_rules {α : Type} (g : Char → List α) (x : LigatureTranslator) (k v : Str) :
    ((∀ r ∈ x.map, reading g r.1 = reading g r.2) → ∀ τ text, reading g (x.modify τ text) = reading g text) ∧
    ((∀ τ text, reading g (LigatureTranslator.modify ⟨[(k, v)]⟩ τ text) = reading g text) ↔ reading g k = reading g v) := by
  have all : ∀ x : LigatureTranslator, (∀ r ∈ x.map, reading g r.1 = reading g r.2) →
      ∀ τ text, reading g (x.modify τ text) = reading g text := by
    intro x h τ text
    have hm : ∀ e ∈ τ.iter x.map, reading g e.1 = reading g e.2 := fun e he => h e ((τ.iter_perm _).mem_iff.1 he)
    rw [LigatureTranslator.modify]
    generalize τ.iter x.map = l at hm
    induction l generalizing text with
    | nil => rfl
    | cons e l ih =>
      rw [List.foldl_cons, ih _ fun e he => hm e (by simp [he])]
      exact strReplace_flatMap g (hm e (by simp)) text
  refine ⟨all x, fun h => ?_, fun h => all ⟨[(k, v)]⟩ (by simpa using h)⟩
  have := h .insertion k
  rw [one_rule] at this
  rw [← this]
  by_cases hk : k = []
  · subst hk
    rw [strReplace]
    simp [reading]
  · have := strReplace_hit hk v []
    rw [List.append_nil, strReplace_nil hk, List.append_nil] at this
    rw [this]

/-- C108: a pipeline keeps the readings that all of its modifiers keep. -/
theorem C108_pipeline {α : Type} (g : Char → List α) (c : Chanoma)
    (h : ∀ m ∈ c.modifiers, ∀ τ text out, m.modify τ text = .ok out → reading g out = reading g text)
    (σs : Nat → Oracle) (text out : Str) (ho : c.normalize σs false text = .ok out) : reading g out = reading g text := by
  have ho' : (c.modifiers.zipIdx 0).foldlM (fun acc m => m.1.modify (σs m.2) acc) text = .ok out := ho
  clear ho
  generalize c.modifiers = ms at h ho'
  generalize 0 = i at ho'
  induction ms generalizing text i with
  | nil => cases ho'; rfl
  | cons m ms ih =>
    rw [List.zipIdx_cons, List.foldlM_cons, bind_eq_ok] at ho'
    obtain ⟨u, h1, h2⟩ := ho'
    rw [ih _ (fun m hm => h m (by simp [hm])) _ h2, h m (by simp) _ _ _ h1]

theorem preset_keeps {α : Type} {g : Char → List α} (h : ∀ n ∈ presetCodes, g (presetFold (Char.ofNat n)) = g (Char.ofNat n))
    (c : Char) : g (presetFold c) = g c := by
  by_cases hc : presetFold c = c
  · rw [hc]
  · have := h _ (presetFold_ne hc)
    rwa [char_ofNat_toNat] at this

/-- The conditions of neologdn, on finitely many characters. -/
theorem neologdn_readings {α : Type} {g : Char → List α}
    (h : ∀ n ∈ presetCodes, g (presetFold (Char.ofNat n)) = g (Char.ofNat n))
    (h1 : ∀ c ∈ ' ' :: 'ー' :: '-' :: (tildeChars ++ choonpuVariants ++ hyphenVariants), g c = [])
    (h2 : ∀ r ∈ neologdnLigatures, reading g r.1 = reading g r.2) : KeepsReading g .neologdn := by
  refine ⟨fun c => ?_, h1 _ (by simp), h1 _ (by simp), fun c hc => h1 c (by simp [hc]), fun a m b hv => ?_⟩
  · unfold neologdnFold
    split
    · rename_i e; rw [e]
    · split
      · rename_i e; rw [h1 c (by simp [e]), h1 _ (by simp)]
      · split
        · rename_i e; rw [h1 c (by simp [e]), h1 _ (by simp)]
        · exact preset_keeps h c
  · have := h2 _ (voiced_cases hv)
    simpa [reading] using this.symm

/-- C108: however often the preset and neologdn are used, in whatever order: the values of the digits of a text, its
Latin letters, capital or small, and its kana with their sound marks stay, in their order. -/
theorem C108_presets (calls : List Call) (ht : ∀ t, Call.addTable t ∉ calls) (c : Chanoma)
    (hc : calls.foldlM Call.run Chanoma.new = .ok c) (σs : Nat → Oracle) (text out : Str)
    (h : c.normalize σs false text = .ok out) :
    reading digitOf out = reading digitOf text ∧ reading letterOf out = reading letterOf text ∧
    reading kanaOf out = reading kanaOf text := by
  rw [(C22_from_new calls c hc σs text).1, Outcome.ok.injEq] at h
  subst h
  have key : ∀ {α : Type} (g : Char → List α),
      (∀ n ∈ presetCodes, g (presetFold (Char.ofNat n)) = g (Char.ofNat n)) →
      (∀ c ∈ ' ' :: 'ー' :: '-' :: (tildeChars ++ choonpuVariants ++ hyphenVariants), g c = []) →
      (∀ r ∈ neologdnLigatures, reading g r.1 = reading g r.2) →
      reading g (calls.foldl Call.meaning text) = reading g text := by
    intro α g h1 h2 h3
    clear hc
    induction calls generalizing text with
    | nil => rfl
    | cons call calls ih =>
      rw [List.foldl_cons, ih (fun t h => ht t (by simp [h]))]
      cases call with
      | addTable t => exact absurd (by simp) (ht t)
      | useNeologdn σ => exact keeps_does (s := .neologdn) (by simp) (neologdn_readings h1 h2 h3) text
      | usePreset σ =>
        show (text.map presetFold).flatMap g = text.flatMap g
        rw [List.flatMap_map]
        exact congrArg (fun f => text.flatMap f) (funext (preset_keeps h1))
  exact ⟨key _ (by decide +kernel) (by decide +kernel) (by decide +kernel),
    key _ (by decide +kernel) (by decide +kernel) (by decide +kernel),
    key _ (by decide +kernel) (by decide +kernel) (by decide +kernel)⟩

/-- C108: the preset also keeps the numbers, that is which digits stand next to one another.  Neologdn does not, as it
deletes what stands between them: `10～20` becomes `1020`. -/
theorem C108_numbers (σ : Oracle) (σs : Nat → Oracle) :
    (∀ c text out, Chanoma.preset σ = .ok c → c.normalize σs false text = .ok out → numbers out = numbers text) ∧
    ∀ c, Chanoma.neologdn σ = .ok c → c.normalize σs false (c! "10～20") = .ok (c! "1020") ∧
      numbers (c! "10～20") = [[1, 0], [2, 0]] ∧ numbers (c! "1020") = [[1, 0, 2, 0]] := by
  constructor
  · intro c text out hc h
    obtain ⟨c', h1, h2⟩ := C07_preset σ
    rw [h1] at hc; cases hc
    rw [h2, Outcome.ok.injEq] at h
    have key : ∀ n ∈ presetCodes, digitOf (presetFold (Char.ofNat n)) = digitOf (Char.ofNat n) := by decide +kernel
    rw [← h, numbers, numbers, List.map_map]
    exact congrArg (fun f => digitRuns (text.map f)) (funext fun c => preset_keeps key c)
  · intro c hc
    obtain ⟨x, h1, -, h2, -⟩ := neologdn_new σ
    simp [Chanoma.neologdn, h1] at hc
    subst hc
    refine ⟨?_, by decide +kernel, by decide +kernel⟩
    show (ModifierKind.modify (σs 0) (c! "10～20") (.neologdn x) >>= fun t => .ok t) = _
    rw [show ModifierKind.modify (σs 0) (c! "10～20") (.neologdn x) = .ok (neologdnSpec (c! "10～20")) from h2 _ _]
    decide +kernel

/- Modifiers, readings that they keep and readings that they do not keep. -/
example : KeepsReading digitOf (.convert [('１', '1'), ('a', 'b')]) := by
  intro c
  by_cases h1 : c = '１'
  · subst h1; decide +kernel
  by_cases h2 : c = 'a'
  · subst h2; decide +kernel
  have : image [('１', '1'), ('a', 'b')] c = c := by simp [image, lastPair, Ne.symm h1, Ne.symm h2]
  rw [this]
example : ¬ KeepsReading letterOf (.convert [('１', '1'), ('a', 'b')]) := fun h =>
  absurd (h 'a') (by decide +kernel)
example : KeepsReading digitOf (.reduce 'w') ∧ ¬ KeepsReading letterOf (.reduce 'w') ∧
    KeepsReading kanaOf (.ligature [(c! "が", c! "か゛")]) ∧ ¬ KeepsReading digitOf (.ligature [(c! "⑩", c! "10")]) := by
  unfold KeepsReading
  decide +kernel
example : Describes (.string (c! "consecutive_character_reducer")) (.string (c! "w")) (.reduce 'w') := .reduce 'w' []
/- The rules of neologdn, backwards. -/
example : ∀ r ∈ (LigatureTranslator.mk [(c! "が", c! "か゛"), (c! "ぱ", c! "は゜")]).map,
    reading kanaOf r.1 = reading kanaOf r.2 := by decide +kernel
example (σ : Oracle) (text : Str) :
    reading digitOf (LigatureTranslator.modify ⟨[(c! "(笑)", c! "w")]⟩ σ text) = reading digitOf text :=
  ((C108_rules digitOf ⟨[]⟩ (c! "(笑)") (c! "w")).2.2 (by decide +kernel)) σ text
/- A pipeline that keeps the digits. -/
example : ∀ m ∈ (Chanoma.mk [.trim, .characterEliminator ⟨['x']⟩]).modifiers, ∀ τ text out,
    m.modify τ text = .ok out → reading digitOf out = reading digitOf text := by
  intro m hm τ text out h
  simp only [List.mem_cons, List.not_mem_nil, or_false] at hm
  rcases hm with rfl | rfl
  · cases h
    exact trim_flatMap digitOf (by decide) text
  · rw [show ModifierKind.modify τ text (.characterEliminator ⟨['x']⟩) = .ok (CharacterEliminator.modify ⟨['x']⟩ text) from rfl,
      eliminator_eq, Outcome.ok.injEq] at h
    rw [← h]
    refine filter_flatMap digitOf _ (fun c hc => ?_) text
    rw [show c = 'x' by simpa using hc]; decide
example : ∃ c, [Call.usePreset .insertion, .useNeologdn .reversed].foldlM Call.run Chanoma.new = .ok c :=
  (C22_call_order _ _).1.2 (by simp [Call.Accepted])
example : neologdnSpec ((c! "ＡbＣ　１２ 3 ｶ゛ーーﾊﾟ").map presetFold) = c! "AbC 12 3ガーハﾟ" ∧
    reading kanaOf (c! "ｶ゛ーーﾊﾟ") = c! "カ゛ハ" := by decide +kernel

end Chanoma
