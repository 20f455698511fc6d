import Verif.Model.Equality
import Verif.Spec.Equality
import Verif.Props.Notation
import Verif.Props.Determinism
import Verif.Props.Frame
/-! # C85: equality of modifiers -/

namespace Chanoma

/-! ## Maps and sets -/

theorem perm_of_subset_nodup {α : Type} [DecidableEq α] {a b : List α} (ha : a.Nodup) (hs : ∀ x ∈ a, x ∈ b)
    (hl : b.length ≤ a.length) : a.Perm b := by
  induction a generalizing b with
  | nil => cases b with
    | nil => exact .refl _
    | cons => simp at hl
  | cons x a ih =>
    have hx : x ∈ b := hs x (by simp)
    have hn := List.nodup_cons.mp ha
    refine (List.Perm.cons x (ih hn.2 (b := b.erase x) (fun y hy => ?_) ?_)).trans
      (List.perm_cons_erase hx).symm
    · exact (List.mem_erase_of_ne (by rintro rfl; exact hn.1 hy)).mpr (hs y (by simp [hy]))
    · rw [List.length_erase_of_mem hx]
      simp only [List.length_cons] at hl
      omega

theorem perm_iff_mem {α : Type} [DecidableEq α] {a b : List α} (ha : a.Nodup) (hb : b.Nodup) :
    a.Perm b ↔ ∀ x, x ∈ a ↔ x ∈ b :=
  ⟨fun h _ => h.mem_iff, fun h => (List.perm_ext_iff_of_nodup ha hb).mpr h⟩

theorem hsetEq_iff {α : Type} [DecidableEq α] {a b : List α} (ha : a.Nodup) (hb : b.Nodup) :
    hsetEq a b = true ↔ ∀ x, x ∈ a ↔ x ∈ b := by
  rw [← perm_iff_mem ha hb]
  simp only [hsetEq, Bool.and_eq_true, beq_iff_eq, List.all_eq_true, decide_eq_true_eq]
  exact ⟨fun h => perm_of_subset_nodup ha h.2 (by omega), fun h => ⟨h.length_eq, fun x hx => h.mem_iff.mp hx⟩⟩

theorem nodup_of_keys {κ ν : Type} {m : List (κ × ν)} (h : (m.map Prod.fst).Nodup) : m.Nodup := by
  induction m with
  | nil => simp
  | cons e m ih =>
    rw [List.map_cons, List.nodup_cons] at h
    exact List.nodup_cons.mpr ⟨fun he => h.1 (List.mem_map_of_mem he), ih h.2⟩

theorem hget_iff {κ ν : Type} [DecidableEq κ] {m : HMap κ ν} (h : (m.map Prod.fst).Nodup) (k : κ) (v : ν) :
    m.get? k = some v ↔ (k, v) ∈ m := by
  refine ⟨hget_mem, fun hm => ?_⟩
  induction m with
  | nil => cases hm
  | cons e m ih =>
    obtain ⟨k', v'⟩ := e
    simp only [List.map_cons, List.nodup_cons] at h
    rw [HMap.get?]
    rcases List.mem_cons.mp hm with he | hm
    · cases he; simp
    · rw [if_neg, ih h.2 hm]
      rintro rfl
      exact h.1 (List.mem_map_of_mem (f := Prod.fst) hm)

theorem get_ext_iff {κ ν : Type} [DecidableEq κ] {a b : HMap κ ν} (ha : (a.map Prod.fst).Nodup)
    (hb : (b.map Prod.fst).Nodup) : (∀ k, a.get? k = b.get? k) ↔ ∀ k v, (k, v) ∈ a ↔ (k, v) ∈ b := by
  constructor
  · intro h k v
    rw [← hget_iff ha, ← hget_iff hb, h]
  · intro h k
    apply Option.ext
    intro v
    rw [hget_iff ha, hget_iff hb, h]

theorem hmapEq_iff {κ ν : Type} [DecidableEq κ] [DecidableEq ν] {a b : HMap κ ν}
    (ha : (a.map Prod.fst).Nodup) (hb : (b.map Prod.fst).Nodup) :
    a.eq b = true ↔ ∀ k v, (k, v) ∈ a ↔ (k, v) ∈ b := by
  have h1 : (∀ e ∈ a, (match b.get? e.1 with | some v => e.2 == v | none => false) = true) ↔
      ∀ e ∈ a, e ∈ b := by
    refine forall_congr' fun e => imp_congr_right fun _ => ?_
    have := hget_iff hb e.1 e.2
    rw [show (e ∈ b) = ((e.1, e.2) ∈ b) from rfl, ← this]
    cases b.get? e.1 with
    | none => simp
    | some v => simp only [beq_iff_eq, Option.some.injEq]; exact eq_comm
  have h2 : a.eq b = true ↔ a.Perm b := by
    unfold HMap.eq
    rw [Bool.and_eq_true, beq_iff_eq, List.all_eq_true]
    refine Iff.trans (and_congr_right fun _ => h1) ?_
    exact ⟨fun h => perm_of_subset_nodup (nodup_of_keys ha) h.2 (by omega),
      fun h => ⟨h.length_eq, fun x hx => h.mem_iff.mp hx⟩⟩
  rw [h2, perm_iff_mem (nodup_of_keys ha) (nodup_of_keys hb)]
  exact ⟨fun h k v => h (k, v), fun h e => h e.1 e.2⟩

/-! ## Obtained modifiers have distinct entries -/

/-- The entries of a modifier are distinct, and a neologdn comes from `Neologdn::new`. -/
def ModifierKind.Sound : ModifierKind → Prop
  | .characterConverter x => (x.itemsMap.map Prod.fst).Nodup
  | .characterEliminator x => x.chars.Nodup
  | .ligatureTranslator x => (x.map.map Prod.fst).Nodup
  | .neologdn x => ∃ σ, Neologdn.new σ = .ok x
  | _ => True

theorem fromTables_nodup {ts : List Table} {x : CharacterConverter}
    (h : CharacterConverter.fromTables ts = .ok x) : (x.itemsMap.map Prod.fst).Nodup := by
  have inner : ∀ (is : List Item) (m m' : HMap Char Char), (m.map Prod.fst).Nodup →
      is.foldlM (fun (m : HMap Char Char) (item : Item) => do
        let f ← unwrap item.from.head?
        let t ← unwrap item.to.head?
        return m.insert f t) m = Outcome.ok m' → (m'.map Prod.fst).Nodup := by
    intro is
    induction is with
    | nil => intro m m' hm h; cases h; exact hm
    | cons i is ih =>
      intro m m' hm h
      rw [List.foldlM_cons, bind_eq_ok] at h
      obtain ⟨m1, h1, h2⟩ := h
      simp only [bind_eq_ok] at h1
      obtain ⟨f, -, t, -, h1⟩ := h1
      cases h1
      exact ih _ _ (insert_nodup m f t hm) h2
  unfold CharacterConverter.fromTables at h
  rw [bind_eq_ok] at h
  obtain ⟨m, h, hx⟩ := h
  cases hx
  suffices ∀ (ts : List Table) (m m' : HMap Char Char), (m.map Prod.fst).Nodup →
      ts.foldlM (fun m (t : Table) =>
        t.items.foldlM (fun (m : HMap Char Char) (item : Item) => do
          let f ← unwrap item.from.head?
          let t ← unwrap item.to.head?
          return m.insert f t) m) m = Outcome.ok m' → (m'.map Prod.fst).Nodup from
    this ts [] m (by simp) h
  intro ts
  induction ts with
  | nil => intro m m' hm h; cases h; exact hm
  | cons t ts ih =>
    intro m m' hm h
    rw [List.foldlM_cons, bind_eq_ok] at h
    obtain ⟨m1, h1, h2⟩ := h
    exact ih _ _ (inner _ _ _ hm h1) h2

theorem fromChars_nodup (cs : List Char) : (CharacterEliminator.fromChars cs).chars.Nodup :=
  nodup_hset_foldl cs [] (by simp)

theorem fromYaml_sound {σ : Oracle} {k v : YValue} {m : ModifierKind}
    (h : ModifierKind.fromYaml σ k v = .ok m) : m.Sound := by
  have hw := fromYaml_wf h
  cases m with
  | characterConverter x =>
    unfold ModifierKind.fromYaml at h
    rw [bind_eq_ok] at h
    obtain ⟨s, -, h⟩ := h
    split at h
    · rw [bind_eq_ok] at h; obtain ⟨y, hy, h⟩ := h; cases h
      simp only [CharacterConverter.fromYaml, bind_eq_ok] at hy
      obtain ⟨_, -, l, -, hy⟩ := hy
      cases hy
      exact collect_nodup l
    all_goals
      repeat' split at h
      all_goals try simp only [bind_eq_ok] at h
      all_goals
        first
        | (obtain ⟨_, _, h⟩ := h; cases h; done)
        | (obtain ⟨_, _, _, _, h⟩ := h; cases h; done)
        | (cases h; done)
  | characterEliminator x =>
    unfold ModifierKind.fromYaml at h
    rw [bind_eq_ok] at h
    obtain ⟨s, -, h⟩ := h
    split at h
    · rw [bind_eq_ok] at h; obtain ⟨y, hy, h⟩ := h; cases h
    split at h
    · rw [bind_eq_ok] at h; obtain ⟨y, hy, h⟩ := h; cases h
      simp only [CharacterEliminator.fromYaml, bind_eq_ok] at hy
      obtain ⟨_, -, l, -, hy⟩ := hy
      cases hy
      exact fromChars_nodup l
    all_goals
      repeat' split at h
      all_goals try simp only [bind_eq_ok] at h
      all_goals
        first
        | (obtain ⟨_, _, h⟩ := h; cases h; done)
        | (obtain ⟨_, _, _, _, h⟩ := h; cases h; done)
        | (cases h; done)
  | ligatureTranslator x => exact hw
  | neologdn x => exact hw
  | _ => trivial

theorem fromStr_sound {σ : Oracle} {s : Str} {m : ModifierKind}
    (h : ModifierKind.fromStr σ s = .ok m) : m.Sound := by
  have hw := fromStr_wf h
  cases m with
  | characterConverter x =>
    unfold ModifierKind.fromStr at h
    repeat' split at h
    all_goals try simp only [bind_eq_ok] at h
    all_goals
      first
      | (obtain ⟨_, _, h⟩ := h; cases h; done)
      | (cases h; done)
      | obtain ⟨_, _, y, hy, h⟩ := h; cases h
    unfold CharacterConverter.fromStr at hy
    simp only at hy
    split at hy
    · cases hy
    · cases hy; exact collect_nodup _
  | characterEliminator x =>
    unfold ModifierKind.fromStr at h
    repeat' split at h
    all_goals try simp only [bind_eq_ok] at h
    all_goals
      first
      | (obtain ⟨_, _, h⟩ := h; cases h; done)
      | (cases h; done)
      | obtain ⟨_, _, y, hy, h⟩ := h; cases h
    unfold CharacterEliminator.fromStr at hy
    simp only at hy
    split at hy
    · cases hy
    · cases hy; exact fromChars_nodup _
  | ligatureTranslator x => exact hw
  | neologdn x => exact hw
  | _ => trivial

theorem build_sound {σ : Oracle} {s : Step} {m : ModifierKind} (h : s.build σ = .ok m) : m.Sound := by
  cases s with
  | convert l => cases h; exact collect_nodup l
  | eliminate cs => cases h; exact fromChars_nodup cs
  | ligature l => cases h; exact collect_nodup l
  | neologdn =>
    simp only [Step.build, bind_eq_ok] at h
    obtain ⟨x, hx, h⟩ := h
    cases h
    exact ⟨σ, hx⟩
  | _ => cases h; trivial

theorem yamlModifiers_sound {σ : Oracle} {data : YValue} {ms : List ModifierKind}
    (h : yamlModifiers σ data = .ok ms) : ∀ m ∈ ms, m.Sound := by
  unfold yamlModifiers at h
  split at h
  · rw [bind_eq_ok] at h
    obtain ⟨l, -, h⟩ := h
    suffices ∀ acc : List ModifierKind, (∀ m ∈ acc, m.Sound) →
        l.foldlM (fun ms (e : YValue × YValue) => do
          return ms ++ [← ModifierKind.fromYaml σ e.1 e.2]) acc = .ok ms → ∀ m ∈ ms, m.Sound from
      this [] (by simp) h
    clear h
    induction l with
    | nil => intro acc ha h; cases h; exact ha
    | cons e l ih =>
      intro acc ha h
      rw [List.foldlM_cons, bind_eq_ok] at h
      obtain ⟨acc', h1, h2⟩ := h
      rw [bind_eq_ok] at h1
      obtain ⟨m, hm, h1⟩ := h1
      cases h1
      refine ih _ ?_ h2
      intro m' hm'
      rcases List.mem_append.mp hm' with hm' | hm'
      · exact ha m' hm'
      · simp at hm'; subst hm'; exact fromYaml_sound hm
  · cases h; simp

theorem loadFile_sound {σ : Oracle} {w : World} {path : OsStr} {ms : List ModifierKind}
    (h : Configuration.loadFileWithExt σ w path = .ok ms) : ∀ m ∈ ms, m.Sound := by
  unfold Configuration.loadFileWithExt at h
  simp only [bind_eq_ok] at h
  obtain ⟨ext, -, conv, hconv, mods, hm, h⟩ := h
  cases h
  intro m hmem
  rcases List.mem_append.mp hmem with hmem | hmem
  · unfold Configuration.loadModifiers at hm
    split at hm
    · unfold modifiersFromYamlPath at hm
      rw [bind_eq_ok] at hm
      obtain ⟨d, -, hm⟩ := hm
      exact yamlModifiers_sound hm m hmem
    · cases hm; simp at hmem
  · simp at hmem; subst hmem
    unfold Configuration.loadItemsToCharacterConverter at hconv
    cases ext <;> simp only [bind_eq_ok] at hconv <;> obtain ⟨t, -, hconv⟩ := hconv <;>
      exact fromTables_nodup hconv

theorem load_sound {σ : Oracle} {w : World} {ms : List ModifierKind}
    (h : Configuration.load σ w = .ok ms) : ∀ m ∈ ms, m.Sound := by
  unfold Configuration.load at h
  rw [bind_eq_ok] at h
  obtain ⟨paths, -, h⟩ := h
  split at h
  · cases h; simp
  · rw [bind_eq_ok] at h
    obtain ⟨r, hr, h⟩ := h
    cases h
    intro m hm
    obtain ⟨l, hl, hm⟩ := List.mem_flatten.mp hm
    obtain ⟨p, -, hp⟩ := mapM_ok_mem hr l hl
    exact loadFile_sound hp m hm

theorem call_sound {c c' : Chanoma} {call : Call} (h : call.run c = .ok c') :
    ∃ k, c'.modifiers = c.modifiers ++ [k] ∧ k.Sound := by
  cases call with
  | usePreset σ =>
    simp only [Call.run, Chanoma.usePreset, Chanoma.allCharactersSet, bind_eq_ok] at h
    obtain ⟨m, ⟨x, hx, hm⟩, h⟩ := h
    cases hm; cases h
    exact ⟨_, rfl, fromTables_nodup hx⟩
  | useNeologdn σ =>
    simp only [Call.run, Chanoma.useNeologdn, bind_eq_ok] at h
    obtain ⟨x, hx, h⟩ := h
    cases h
    exact ⟨_, rfl, σ, hx⟩
  | addTable t =>
    simp only [Call.run, Chanoma.addTable, bind_eq_ok] at h
    obtain ⟨x, hx, h⟩ := h
    cases h
    exact ⟨_, rfl, fromTables_nodup hx⟩

theorem apiBuilt_sound {c : Chanoma} (h : ApiBuilt c) : ∀ m ∈ c.modifiers, m.Sound := by
  induction h with
  | new => simp [Chanoma.new]
  | @preset σ c hc =>
    have : (Call.usePreset σ).run Chanoma.new = .ok c := by
      rw [← hc]; simp [Call.run, Chanoma.usePreset, Chanoma.preset, Chanoma.new]
    obtain ⟨k, hk, hs⟩ := call_sound this
    rw [hk]; simpa [Chanoma.new] using hs
  | @neologdn σ c hc =>
    have : (Call.useNeologdn σ).run Chanoma.new = .ok c := by
      rw [← hc]; simp [Call.run, Chanoma.useNeologdn, Chanoma.neologdn, Chanoma.new]
    obtain ⟨k, hk, hs⟩ := call_sound this
    rw [hk]; simpa [Chanoma.new] using hs
  | @fromTable t c hc =>
    have : (Call.addTable t).run Chanoma.new = .ok c := by
      rw [← hc]; simp [Call.run, Chanoma.addTable, Chanoma.fromTable, Chanoma.new]
    obtain ⟨k, hk, hs⟩ := call_sound this
    rw [hk]; simpa [Chanoma.new] using hs
  | loadRc hc =>
    unfold Chanoma.loadRc at hc
    rw [bind_eq_ok] at hc
    obtain ⟨ms, hms, hc⟩ := hc
    cases hc
    exact load_sound hms
  | fromConfigFile hc =>
    unfold Chanoma.fromConfigFile at hc
    rw [bind_eq_ok] at hc
    obtain ⟨ms, hms, hc⟩ := hc
    cases hc
    exact loadFile_sound hms
  | call call _ hrun ih =>
    obtain ⟨k, hk, hs⟩ := call_sound hrun
    rw [hk]
    intro m hm
    rcases List.mem_append.mp hm with hm | hm
    · exact ih m hm
    · simp at hm; subst hm; exact hs

theorem obtained_sound {m : ModifierKind} (h : Obtained m) : m.Sound := by
  cases h with
  | string h => exact fromStr_sound h
  | yaml h => exact fromYaml_sound h
  | program h => exact build_sound (macro_build h .insertion)
  | tables h => exact fromTables_nodup h
  | converter h => exact h
  | ligatures h => exact h
  | member h hm => exact apiBuilt_sound h m hm

theorem sound_wf {m : ModifierKind} (h : m.Sound) : m.WF := by
  cases m with
  | ligatureTranslator x => exact h
  | neologdn x => exact h
  | _ => trivial

/-! ## neologdn -/

theorem itemSubst_none_iff {items : List Item} (hne : CellsNonEmpty items) (c : Char) :
    itemSubst items c = none ↔ ∀ i ∈ items, i.from.head? ≠ some c := by
  unfold itemSubst
  split
  · rename_i i hi
    have h1 := List.find?_some hi
    have h2 := List.mem_reverse.mp (List.mem_of_find?_eq_some hi)
    have h3 := (hne i h2).2
    simp only [decide_eq_true_eq] at h1
    constructor
    · intro h
      exact absurd (List.head?_eq_none_iff.mp h) h3
    · intro h
      exact absurd h1 (h i h2)
  · rename_i h
    simp only [true_iff]
    intro i hi
    have := List.find?_eq_none.mp h i (List.mem_reverse.mpr hi)
    simpa using this

theorem itemSubst_congr {l l' : List Item} (hne : CellsNonEmpty l) (hm : ∀ i, i ∈ l ↔ i ∈ l')
    (f : Char → Char) (hf : ∀ i ∈ l, i.to.head? = i.from.head?.map f) (c : Char) :
    itemSubst l c = itemSubst l' c := by
  have hne' : CellsNonEmpty l' := fun i hi => hne i ((hm i).mpr hi)
  have hf' : ∀ i ∈ l', i.to.head? = i.from.head?.map f := fun i hi => hf i ((hm i).mpr hi)
  have key : ∀ (m : List Item), (∀ i ∈ m, i.to.head? = i.from.head?.map f) →
      ∀ d, itemSubst m c = some d → d = f c := by
    intro m hm d h
    unfold itemSubst at h
    split at h
    · rename_i i hi
      have h1 := List.find?_some hi
      simp only [decide_eq_true_eq] at h1
      have h2 := hm i (List.mem_reverse.mp (List.mem_of_find?_eq_some hi))
      rw [h, h1] at h2
      simpa using h2
    · cases h
  have hn : itemSubst l c = none ↔ itemSubst l' c = none := by
    rw [itemSubst_none_iff hne, itemSubst_none_iff hne']
    exact forall_congr' fun i => by rw [hm]
  cases h1 : itemSubst l c with
  | none => exact (hn.mp h1).symm
  | some d =>
    cases h2 : itemSubst l' c with
    | none => rw [hn.mpr h2] at h1; cases h1
    | some d' => rw [key l hf d h1, key l' hf' d' h2]

theorem neologdn_eq {σ τ : Oracle} {x y : Neologdn} (hx : Neologdn.new σ = .ok x)
    (hy : Neologdn.new τ = .ok y) : x.eq y = true := by
  simp only [Neologdn.new, bind_eq_ok] at hx hy
  obtain ⟨cx, hcx, hx⟩ := hx
  obtain ⟨cy, hcy, hy⟩ := hy
  cases hx; cases hy
  obtain ⟨cx', h1, h2⟩ := fromTables_one_ok _ (neologdn_nonempty σ)
  obtain ⟨cy', h3, h4⟩ := fromTables_one_ok _ (neologdn_nonempty τ)
  rw [hcx] at h1; cases h1
  rw [hcy] at h3; cases h3
  have e1 : cx.eq cy = true := by
    unfold CharacterConverter.eq
    rw [hmapEq_iff (fromTables_nodup hcx) (fromTables_nodup hcy),
      ← get_ext_iff (fromTables_nodup hcx) (fromTables_nodup hcy), h2, h4]
    exact itemSubst_congr (neologdn_nonempty σ) (fun i => by rw [mem_neologdnTable, mem_neologdnTable])
      neologdnFold (fun i hi => neologdn_graph i (mem_neologdnTable.mp hi))
  have e2 : (CharacterEliminator.fromChars tildes).eq (.fromChars tildes) = true :=
    (hsetEq_iff (fromChars_nodup _) (fromChars_nodup _)).mpr fun _ => Iff.rfl
  have e3 : (LigatureTranslator.mk neologdnLigatures).eq ⟨neologdnLigatures⟩ = true :=
    (hmapEq_iff ligatures_nodup ligatures_nodup).mpr fun _ _ => Iff.rfl
  simp [Neologdn.eq, e1, e2, e3, ConsecutiveCharacterReducer.eq]

theorem eq_iff_sameEntries {a b : ModifierKind} (ha : a.Sound) (hb : b.Sound) :
    a.eq b = true ↔ SameEntries a b := by
  cases a <;> cases b <;> try (simp [ModifierKind.eq, SameEntries]; done)
  · exact hmapEq_iff ha hb
  · exact hsetEq_iff ha hb
  · simp [ModifierKind.eq, ConsecutiveCharacterReducer.eq, SameEntries]
  · exact hmapEq_iff ha hb
  · obtain ⟨σ, ha⟩ := ha
    obtain ⟨τ, hb⟩ := hb
    simp [ModifierKind.eq, SameEntries, neologdn_eq ha hb]

/-! ## The theorems -/

/-- C85: two modifiers, however obtained, compare equal exactly if they are of the same kind and have
the same entries; neologdns always are equal. -/
theorem C85_same_entries (a b : ModifierKind) (ha : Obtained a) (hb : Obtained b) :
    a.eq b = true ↔ SameEntries a b :=
  eq_iff_sameEntries (obtained_sound ha) (obtained_sound hb)

/-- C85: on the modifiers that can be obtained, `==` is reflexive, symmetric and transitive. -/
theorem C85_equivalence (a b c : ModifierKind) (ha : Obtained a) (hb : Obtained b) (hc : Obtained c) :
    a.eq a = true ∧ a.eq b = b.eq a ∧ (a.eq b = true → b.eq c = true → a.eq c = true) := by
  rw [Bool.eq_iff_iff (a := a.eq b)]
  simp only [C85_same_entries _ _, ha, hb, hc]
  refine ⟨?_, ?_, ?_⟩
  · cases a <;> simp [SameEntries]
  · cases a <;> cases b <;> simp only [SameEntries]
    · exact forall_congr' fun _ => forall_congr' fun _ => iff_comm
    · exact forall_congr' fun _ => iff_comm
    · exact eq_comm
    · exact forall_congr' fun _ => forall_congr' fun _ => iff_comm
  · cases a <;> cases b <;> simp only [SameEntries, false_implies] <;> cases c <;>
      simp only [imp_self, implies_true]
    · exact fun h h' x y => (h x y).trans (h' x y)
    · exact fun h h' x => (h x).trans (h' x)
    · exact fun h h' => h.trans h'
    · exact fun h h' x y => (h x y).trans (h' x y)

theorem madeAs_build {m : ModifierKind} {s : Step} (h : MadeAs m s) : ∃ σ, s.build σ = .ok m := by
  cases h with
  | yaml hd h => exact ⟨_, by rw [← describes_build hd]; exact h⟩
  | string hw h => exact ⟨_, by rw [← written_build hw]; exact h⟩
  | program h => exact ⟨.insertion, macro_build h _⟩

/-- C85: two modifiers, each described in any of the notations, compare equal exactly if the
descriptions say the same. -/
theorem C85_notations (m m' : ModifierKind) (s s' : Step) (h : MadeAs m s) (h' : MadeAs m' s') :
    m.eq m' = true ↔ SameStep s s' := by
  obtain ⟨σ, hb⟩ := madeAs_build h
  obtain ⟨σ', hb'⟩ := madeAs_build h'
  rw [eq_iff_sameEntries (build_sound hb) (build_sound hb')]
  have hn : ∀ {σ m}, Step.build σ .neologdn = .ok m → ∃ x, m = .neologdn x := by
    intro σ m h
    simp only [Step.build, bind_eq_ok] at h
    obtain ⟨x, -, h⟩ := h
    exact ⟨x, by cases h; rfl⟩
  cases s <;> cases s' <;>
    (first | (cases hb; done) | cases hb | obtain ⟨x, rfl⟩ := hn hb) <;>
    (first | cases hb' | obtain ⟨y, rfl⟩ := hn hb') <;>
    simp only [SameEntries, SameStep]
  · rename_i l l'
    rw [show ((CharacterConverter.fromMap (HMap.collect l)).itemsMap) = HMap.collect l from rfl,
      show ((CharacterConverter.fromMap (HMap.collect l')).itemsMap) = HMap.collect l' from rfl,
      ← get_ext_iff (collect_nodup l) (collect_nodup l'), collect_lastPair, collect_lastPair]
  · exact forall_congr' fun c => by rw [mem_fromChars, mem_fromChars]
  · rename_i l l'
    constructor
    · intro h r
      rw [← (collect_rules l).mem_iff, ← (collect_rules l').mem_iff]
      exact h r.1 r.2
    · intro h a b
      rw [(collect_rules l).mem_iff, (collect_rules l').mem_iff]
      exact h (a, b)

/-- C85: two converters, each made of a table, compare equal exactly if the tables give every
character the same partner; the converters of the preset always do, in whatever order its sets were
gone through. -/
theorem C85_tables (t t' : Table) (x x' : CharacterConverter) (hx : CharacterConverter.fromTables [t] = .ok x)
    (hx' : CharacterConverter.fromTables [t'] = .ok x') (σ τ : Oracle) :
    ((ModifierKind.characterConverter x).eq (.characterConverter x') = true ↔
      ∀ c, itemSubst t.items c = itemSubst t'.items c) ∧
    ∃ p p', Chanoma.allCharactersSet σ = .ok p ∧ Chanoma.allCharactersSet τ = .ok p' ∧ p.eq p' = true := by
  have key : ∀ (t t' : Table) (x x' : CharacterConverter), CharacterConverter.fromTables [t] = .ok x →
      CharacterConverter.fromTables [t'] = .ok x' →
      ((ModifierKind.characterConverter x).eq (.characterConverter x') = true ↔
        ∀ c, itemSubst t.items c = itemSubst t'.items c) := by
    intro t t' x x' hx hx'
    have hg : ∀ (t : Table) (x : CharacterConverter), CharacterConverter.fromTables [t] = .ok x →
        x.itemsMap.get? = itemSubst t.items := by
      intro t x hx
      by_cases hne : CellsNonEmpty t.items
      · obtain ⟨y, h1, h2⟩ := fromTables_one_ok t hne
        rw [hx] at h1; cases h1; exact h2
      · rw [fromTables_one_panic t hne] at hx; cases hx
    show x.itemsMap.eq x'.itemsMap = true ↔ _
    rw [hmapEq_iff (fromTables_nodup hx) (fromTables_nodup hx'),
      ← get_ext_iff (fromTables_nodup hx) (fromTables_nodup hx'), hg t x hx, hg t' x' hx']
  refine ⟨key t t' x x' hx hx', ?_⟩
  obtain ⟨p, h1, -⟩ := fromTables_one_ok _ (preset_nonempty σ)
  obtain ⟨p', h2, -⟩ := fromTables_one_ok _ (preset_nonempty τ)
  refine ⟨.characterConverter p, .characterConverter p', by simp [Chanoma.allCharactersSet, h1],
    by simp [Chanoma.allCharactersSet, h2], (key _ _ _ _ h1 h2).mpr ?_⟩
  exact itemSubst_congr (preset_nonempty σ) (fun i => by rw [mem_presetTable, mem_presetTable])
    presetFold (fun i hi => preset_graph i (mem_presetTable.mp hi))

theorem eq_modify {a b : ModifierKind} (ha : a.Sound) (hb : b.Sound) (h : SameEntries a b) :
    (∀ σ text, ∃ τ, b.modify τ text = a.modify σ text) ∧
    ((∀ x, a ≠ .ligatureTranslator x) → ∀ σ τ text, a.modify σ text = b.modify τ text) := by
  cases a <;> cases b <;> simp only [SameEntries] at h
  · rename_i x y
    have hg := (get_ext_iff ha hb).mpr h
    have : ∀ σ τ text, (ModifierKind.characterConverter x).modify σ text =
        (ModifierKind.characterConverter y).modify τ text := by
      intro σ τ text
      show x.modify σ text = y.modify τ text
      rw [modify_eq, modify_eq, show x.itemsMap.get? = y.itemsMap.get? from funext hg]
    exact ⟨fun σ text => ⟨σ, (this σ σ text).symm⟩, fun _ => this⟩
  · rename_i x y
    have : ∀ σ τ text, (ModifierKind.characterEliminator x).modify σ text =
        (ModifierKind.characterEliminator y).modify τ text := by
      intro σ τ text
      show Outcome.ok (x.modify text) = .ok (y.modify text)
      rw [eliminator_eq, eliminator_eq]
      simp only [h]
    exact ⟨fun σ text => ⟨σ, (this σ σ text).symm⟩, fun _ => this⟩
  · rename_i x y
    obtain ⟨c⟩ := x
    obtain ⟨d⟩ := y
    cases h
    exact ⟨fun σ text => ⟨σ, rfl⟩, fun _ σ τ text => rfl⟩
  · exact ⟨fun σ text => ⟨σ, rfl⟩, fun _ σ τ text => rfl⟩
  · rename_i x y
    refine ⟨fun σ text => ?_, fun hn => absurd rfl (hn x)⟩
    have hp : x.map.Perm y.map :=
      (perm_iff_mem (nodup_of_keys ha) (nodup_of_keys hb)).mpr fun e => h e.1 e.2
    obtain ⟨τ, hτ⟩ := Oracle.exists_iter ((σ.iter_perm x.map).trans hp)
    refine ⟨τ, ?_⟩
    show Outcome.ok (y.modify τ text) = .ok (x.modify σ text)
    unfold LigatureTranslator.modify
    rw [hτ]
  · exact ⟨fun σ text => ⟨σ, rfl⟩, fun _ σ τ text => rfl⟩
  · rename_i x y
    obtain ⟨σ', hx⟩ := ha
    obtain ⟨τ', hy⟩ := hb
    obtain ⟨x', h1, -, h2, -⟩ := neologdn_new σ'
    rw [h1] at hx; cases hx
    obtain ⟨y', h3, -, h4, -⟩ := neologdn_new τ'
    rw [h3] at hy; cases hy
    have : ∀ σ τ text, (ModifierKind.neologdn x).modify σ text = (ModifierKind.neologdn y).modify τ text :=
      fun σ τ text => (h2 σ text).trans (h4 τ text).symm
    exact ⟨fun σ text => ⟨σ, (this σ σ text).symm⟩, fun _ => this⟩

/-- C85: equal modifiers can do the same: whatever text the one makes, the other makes as well, in some
order of going through its rules; only for ligature translators does the order matter. -/
theorem C85_equal_do_the_same (a b : ModifierKind) (ha : Obtained a) (hb : Obtained b)
    (h : a.eq b = true) :
    (∀ σ text, ∃ τ, b.modify τ text = a.modify σ text) ∧
    ((∀ x, a ≠ .ligatureTranslator x) → ∀ σ τ text, a.modify σ text = b.modify τ text) :=
  eq_modify (obtained_sound ha) (obtained_sound hb) ((C85_same_entries a b ha hb).mp h)

/-- C85, exactly: two modifiers of the same kind other than a ligature translator compare equal if and
only if they always make the same text and report the same changes, order aside. -/
theorem C85_same_records_iff (a b : ModifierKind) (ha : Obtained a) (hb : Obtained b) (hk : SameKind a b)
    (hl : ∀ x, a ≠ .ligatureTranslator x) :
    a.eq b = true ↔ ∀ σ τ text, ∃ r r', a.modifyWithPositions σ text = .ok r ∧
      b.modifyWithPositions τ text = .ok r' ∧ r.text = r'.text ∧ r.positions.Perm r'.positions := by
  rw [C85_same_entries a b ha hb]
  have sa := obtained_sound ha
  have sb := obtained_sound hb
  constructor
  · intro h σ τ text
    obtain ⟨o, ps, h1, h2⟩ := wf_agree a (sound_wf sa) σ text
    obtain ⟨o', ps', h1', h2'⟩ := wf_agree b (sound_wf sb) τ text
    have he := (eq_modify sa sb h).2 hl σ τ text
    rw [h1, h1'] at he
    refine ⟨_, _, h2, h2', Outcome.ok.inj he, ?_⟩
    show ps.Perm ps'
    have hp : ∀ {o o' : Str} {ps ps' : List Position} {k k' : ModifierKind},
        Outcome.ok (ModifiedRecord.mk k o ps) = .ok ⟨k', o', ps'⟩ → ps = ps' :=
      fun h => congrArg ModifiedRecord.positions (Outcome.ok.inj h)
    clear h1 h1' he
    cases a <;> cases b <;> simp only [SameEntries] at h
    · rename_i x y
      have hg := (get_ext_iff sa sb).mpr h
      obtain ⟨qs, h3, h4⟩ := modifyWithPositions_eq x σ text
      obtain ⟨qs', h3', h4'⟩ := modifyWithPositions_eq y τ text
      rw [ModifierKind.modifyWithPositions, h3] at h2
      rw [ModifierKind.modifyWithPositions, h3'] at h2'
      rw [occPos_substPositions] at h4 h4'
      rw [← hp h2, ← hp h2']
      rw [show x.itemsMap.get? = y.itemsMap.get? from funext hg] at h4
      exact h4.trans h4'.symm
    · rw [← hp h2, ← hp h2']
    · rename_i x y
      obtain ⟨c⟩ := x
      obtain ⟨d⟩ := y
      cases h
      rw [ModifierKind.modifyWithPositions] at h2 h2'
      rw [h2] at h2'; cases h2'; exact .refl _
    · cases h2; cases h2'; exact .refl _
    · exact absurd rfl (hl _)
    · rw [ModifierKind.modifyWithPositions] at h2 h2'
      rw [h2] at h2'; cases h2'; exact .refl _
    · obtain ⟨σ', hx⟩ := sa
      obtain ⟨τ', hy⟩ := sb
      obtain ⟨x', h5, -, -, h6⟩ := neologdn_new σ'
      rw [h5] at hx; cases hx
      obtain ⟨y', h7, -, -, h8⟩ := neologdn_new τ'
      rw [h7] at hy; cases hy
      rw [ModifierKind.modifyWithPositions, h6] at h2; cases h2
      rw [ModifierKind.modifyWithPositions, h8] at h2'; cases h2'
      exact .refl _
  · intro h
    cases a <;> cases b <;> simp only [SameKind] at hk <;> simp only [SameEntries]
    · rename_i x y
      refine (get_ext_iff sa sb).mp fun c => ?_
      obtain ⟨r, r', h1, h2, -, h3⟩ := h .insertion .insertion [c]
      obtain ⟨qs, h4, h5⟩ := modifyWithPositions_eq x .insertion [c]
      obtain ⟨qs', h4', h5'⟩ := modifyWithPositions_eq y .insertion [c]
      rw [ModifierKind.modifyWithPositions, h4] at h1; cases h1
      rw [ModifierKind.modifyWithPositions, h4'] at h2; cases h2
      rw [occPos_substPositions] at h5 h5'
      have h6 := (h5.symm.trans h3).trans h5'
      simp only [substPositions, List.append_nil] at h6
      cases hx : x.itemsMap.get? c with
      | none =>
        cases hy : y.itemsMap.get? c with
        | none => rfl
        | some d => rw [hx, hy] at h6; simpa using h6.length_eq
      | some d =>
        cases hy : y.itemsMap.get? c with
        | none => rw [hx, hy] at h6; simpa using h6.length_eq
        | some d' =>
          rw [hx, hy] at h6
          have := List.perm_singleton.mp h6
          simp only [List.cons.injEq, Position.mk.injEq] at this
          simp [this.1.2.1]
    · rename_i x y
      intro c
      obtain ⟨r, r', h1, h2, h3, -⟩ := h .insertion .insertion [c]
      cases h1; cases h2
      rw [CharacterEliminator.modifyWithPositions, CharacterEliminator.modifyWithPositions, eliminator_eq,
        eliminator_eq] at h3
      by_cases hx : c ∈ x.chars <;> by_cases hy : c ∈ y.chars <;> simp_all
    · rename_i x y
      obtain ⟨o, ps, h1, h2⟩ := wf_agree (.consecutiveCharacterReducer x) trivial .insertion [x.c, x.c]
      obtain ⟨o', ps', h1', h2'⟩ := wf_agree (.consecutiveCharacterReducer y) trivial .insertion [x.c, x.c]
      obtain ⟨r, r', h3, h4, h5, -⟩ := h .insertion .insertion [x.c, x.c]
      rw [h2] at h3; cases h3
      rw [h2'] at h4; cases h4
      cases h1; cases h1'
      by_cases e : y.c = x.c
      · exact e.symm
      · simp [ConsecutiveCharacterReducer.modify, reduceStep, e] at h5
    · exact absurd rfl (hl _)

/-- C85: making the same texts is not enough: a converter and a ligature translator that replace `a`
by itself do what the empty ones do, but are not equal to them. -/
theorem C85_not_conversely :
    (∃ a b, Obtained a ∧ Obtained b ∧ SameKind a b ∧ a.eq b = false ∧
      ∀ σ τ text, a.modify σ text = b.modify τ text) ∧
    ∃ x y : LigatureTranslator, (ModifierKind.ligatureTranslator x).eq (.ligatureTranslator y) = false ∧
      Obtained (.ligatureTranslator x) ∧ Obtained (.ligatureTranslator y) ∧
      ∀ σ τ text, x.modify σ text = y.modify τ text := by
  refine ⟨⟨.characterConverter ⟨[('a', 'a')]⟩, .characterConverter ⟨[]⟩, .converter (by simp),
      .converter (by simp), trivial, by decide +kernel, fun σ τ text => ?_⟩,
    ⟨[(c! "a", c! "a")]⟩, ⟨[]⟩, by decide +kernel, .ligatures (by simp), .ligatures (by simp), fun σ τ text => ?_⟩
  · show (⟨[('a', 'a')]⟩ : CharacterConverter).modify σ text = (⟨[]⟩ : CharacterConverter).modify τ text
    rw [modify_eq, modify_eq]
    congr 1
    refine List.map_congr_left fun c _ => ?_
    by_cases h : 'a' = c
    · subst h; rfl
    · simp [HMap.get?, h]
  · unfold LigatureTranslator.modify
    rw [iter_short σ _ (by simp), iter_short τ _ (by simp)]
    show strReplace (c! "a") (c! "a") text = text
    have h := strReplace_replaced (show c! "a" ≠ [] by simp) (c! "a") text
    generalize strReplace (c! "a") (c! "a") text = o at h
    induction h <;> simp_all

/-- Two notations with the entries in another order, an overridden pair and a repeated character. -/
example : ∃ a b c d, MadeAs a (.convert [('a', 'b'), ('c', 'd')]) ∧
    MadeAs b (.convert [('c', 'x'), ('c', 'd'), ('a', 'b')]) ∧
    MadeAs c (.eliminate ['a', 'b']) ∧ MadeAs d (.eliminate ['b', 'a', 'b']) ∧
    a.eq b = true ∧ c.eq d = true ∧ a.eq c = false := by
  refine ⟨_, _, _, _, .program (.convert _), .program (.convert _), .program (.eliminate _),
    .program (.eliminate _), ?_⟩
  decide +kernel

/-- Tables whose items are in another order, one with a cell whose second character does not count. -/
example : ∃ x x', CharacterConverter.fromTables [Table.fromCorr [⟨c! "a", c! "bc"⟩, ⟨c! "d", c! "e"⟩] .new] =
      .ok x ∧
    CharacterConverter.fromTables [Table.fromCorr [⟨c! "d", c! "e"⟩, ⟨c! "a", c! "b"⟩] .new] = .ok x' ∧
    x ≠ x' ∧ x.eq x' = true :=
  ⟨⟨[('a', 'b'), ('d', 'e')]⟩, ⟨[('d', 'e'), ('a', 'b')]⟩, by decide +kernel, by decide +kernel,
    by decide +kernel, by decide +kernel⟩

/-- Equal modifiers of a normaliser and of a string. -/
example (σ τ : Oracle) : ∃ c a b, Chanoma.neologdn σ = .ok c ∧ a ∈ c.modifiers ∧
    ModifierKind.fromStr τ (c! "neologdn") = .ok b ∧ Obtained a ∧ Obtained b ∧ a.eq b = true := by
  obtain ⟨x, hx, -⟩ := neologdn_new σ
  obtain ⟨y, hy, -⟩ := neologdn_new τ
  have h1 : Chanoma.neologdn σ = .ok ⟨[.neologdn x]⟩ := by simp [Chanoma.neologdn, hx]
  have h2 : ModifierKind.fromStr τ (c! "neologdn") = .ok (.neologdn y) := by
    unfold ModifierKind.fromStr
    rw [if_pos rfl, hy]; rfl
  exact ⟨_, .neologdn x, _, h1, by simp, h2, .member (.neologdn h1) (by simp), .string h2, neologdn_eq hx hy⟩

end Chanoma
