import Verif.Proofs.Csv
/-! # Lemmas about export and import -/

namespace Chanoma

theorem flatMap_congr' {α β : Type} {l : List α} {f g : α → List β} (h : ∀ x ∈ l, f x = g x) :
    l.flatMap f = l.flatMap g := by
  rw [List.flatMap, List.flatMap, List.map_congr_left h]

/-- The items of the groups of an `item_map`. -/
def groupItems (e : Str × List Str) : List Item := e.2.map fun f => ⟨f, e.1⟩

theorem groupItems_eq {items : List Item} {e : Str × List Str} (h : e ∈ itemMap items) :
    groupItems e = items.filter fun i => i.to = e.1 := by
  have := (mem_itemMap.mp h).2
  unfold groupItems
  rw [this, fromsOf, List.map_map]
  conv => rhs; rw [← List.map_id (items.filter _)]
  apply List.map_congr_left
  intro i hi
  rw [List.mem_filter] at hi
  have h2 : i.to = e.1 := by simpa using hi.2
  cases i with
  | mk f t => simp only [Function.comp, id] at h2 ⊢; rw [h2]

theorem filter_keys_perm (items : List Item) (ks : List Str) (h : ks.Nodup) :
    (ks.flatMap fun k => items.filter fun i => i.to = k).Perm (items.filter fun i => i.to ∈ ks) := by
  induction ks with
  | nil => simp
  | cons k ks ih =>
    rw [List.nodup_cons] at h
    rw [List.flatMap_cons]
    have h1 := List.filter_append_perm (fun i : Item => decide (i.to = k))
      (items.filter fun i => i.to ∈ k :: ks)
    rw [List.filter_filter, List.filter_filter] at h1
    refine List.Perm.trans ?_ h1
    refine List.Perm.append (.of_eq (List.filter_congr ?_)) ((ih h.2).trans (.of_eq (List.filter_congr ?_)))
    · intro i _
      by_cases hk : i.to = k <;> simp [hk]
    · intro i _
      by_cases hk : i.to = k
      · simp [hk, h.1]
      · simp [hk]

theorem itemMap_keys_nodup (items : List Item) : ((itemMap items).map Prod.fst).Nodup := by
  rw [List.nodup_iff_pairwise_ne, List.pairwise_map]
  exact (itemMap_sorted items).imp fun h => h.2

theorem itemMap_key_iff (items : List Item) (k : Str) :
    k ∈ (itemMap items).map Prod.fst ↔ ∃ i ∈ items, i.to = k := by
  simp only [List.mem_map]
  constructor
  · rintro ⟨⟨k', vs⟩, h, rfl⟩
    obtain ⟨h1, h2⟩ := mem_itemMap.mp h
    rw [h2] at h1
    simp only [fromsOf, ne_eq, List.map_eq_nil_iff, List.filter_eq_nil_iff] at h1
    refine Classical.byContradiction fun hc => h1 fun a ha hk => hc ⟨a, ha, by simpa using hk⟩
  · rintro ⟨i, hi, rfl⟩
    refine ⟨(i.to, fromsOf items i.to), mem_itemMap.mpr ⟨?_, rfl⟩, rfl⟩
    simp only [fromsOf, ne_eq, List.map_eq_nil_iff, List.filter_eq_nil_iff]
    exact fun h => h i hi (by simp)

theorem groups_perm_of {items : List Item} {m : List (Str × List Str)} (hsub : m.Sublist (itemMap items)) :
    (m.flatMap groupItems).Perm (items.filter fun i => i.to ∈ m.map Prod.fst) := by
  have h1 : m.flatMap groupItems = (m.map Prod.fst).flatMap fun k => items.filter fun i => i.to = k := by
    rw [List.flatMap_map]
    apply flatMap_congr'
    intro e he
    exact groupItems_eq (hsub.subset he)
  rw [h1]
  exact filter_keys_perm items _ ((itemMap_keys_nodup items).sublist (hsub.map _))

/-- All groups together are the items. -/
theorem groups_perm (items : List Item) : ((itemMap items).flatMap groupItems).Perm items := by
  refine (groups_perm_of (List.Sublist.refl _)).trans (.of_eq ?_)
  rw [List.filter_eq_self]
  intro i hi
  have := (itemMap_key_iff items i.to).mpr ⟨i, hi, rfl⟩
  simpa using this

/-- Without the first group, the items with the least `to` are missing. -/
theorem groups_tail_perm (items : List Item) {least : Str} (h1 : ∃ i ∈ items, i.to = least)
    (h2 : ∀ i ∈ items, LexLe least i.to) :
    ((itemMap items).tail.flatMap groupItems).Perm (items.filter fun i => i.to ≠ least) := by
  have hs := itemMap_sorted items
  have hk := itemMap_key_iff items
  refine (groups_perm_of (List.tail_sublist _)).trans (.of_eq (List.filter_congr ?_))
  intro i hi
  rw [Bool.eq_iff_iff, decide_eq_true_iff, decide_eq_true_iff]
  have hin := (hk i.to).mpr ⟨i, hi, rfl⟩
  have hl := (hk least).mpr h1
  cases hm : itemMap items with
  | nil => rw [hm] at hl; simp at hl
  | cons e m =>
    rw [hm] at hs hk hin hl
    have hs' := List.pairwise_cons.mp hs
    have he : e.1 = least := by
      rw [List.map_cons, List.mem_cons] at hl
      rcases hl with hl | hl
      · exact hl.symm
      · obtain ⟨f, hf, hfl⟩ := List.mem_map.mp hl
        have h3 := hs'.1 f hf
        obtain ⟨j, hj, hje⟩ := (hk e.1).mp (by simp)
        have h4 := h2 j hj
        rw [hje, ← hfl] at h4
        exact absurd (h3.1.antisymm h4) h3.2
    rw [List.tail_cons]
    constructor
    · intro hmem hto
      obtain ⟨f, hf, hfl⟩ := List.mem_map.mp hmem
      exact (hs'.1 f hf).2 (by rw [hfl, hto, he])
    · intro hne
      rw [List.map_cons, List.mem_cons] at hin
      rcases hin with hin | hin
      · exact absurd (hin.trans he) hne
      · exact hin

theorem exportRecords_items (items : List Item) :
    (exportRecords items).tail.flatMap rowItems = (itemMap items).tail.flatMap groupItems := by
  unfold exportRecords
  rw [← List.map_tail, List.flatMap_map]
  apply flatMap_congr'
  intro e _
  simp [rowItems, groupItems]

/-- The items that come back after an export, possibly followed by empty lines. -/
theorem export_import (items : List Item) (suffix : Str) (hs : CsvText [] suffix) :
    (textParse (toCsvWriter items ++ suffix)).tail.flatMap rowItems =
      (itemMap items).tail.flatMap groupItems := by
  rw [toCsvWriter_eq, textParse_export_tail (exportRecords_len items) suffix hs, exportRecords_items]

theorem yamlEntry_sequence (to : Str) (froms : List Str) :
    yamlEntryItems (.string to) (.sequence (froms.map .string)) = .ok (groupItems (to, froms)) := by
  have : yamlEntryItems (.string to) (.sequence (froms.map .string)) =
      (froms.map YValue.string).mapM fun v => do
        let f ← unwrap v.asStr
        let t ← unwrap (YValue.string to).asStr
        return (⟨f, t⟩ : Item) := rfl
  rw [this]
  induction froms with
  | nil => rfl
  | cons f fs ih =>
    rw [List.map_cons, List.mapM_cons, ih]
    · rfl
    · rfl

theorem yaml_items_fold (l : List (YValue × YValue)) (gs : List (List Item))
    (h : l.mapM (fun e => yamlEntryItems e.1 e.2) = .ok gs) (acc : List Item) :
    l.foldlM (fun items e => do return items ++ (← yamlEntryItems e.1 e.2)) acc =
      .ok (acc ++ gs.flatten) := by
  induction l generalizing gs acc with
  | nil => simp at h; subst h; simp
  | cons e l ih =>
    rw [List.mapM_cons, bind_eq_ok] at h
    obtain ⟨g, hg, h⟩ := h
    rw [bind_eq_ok] at h
    obtain ⟨gs', hgs, h⟩ := h
    cases h
    rw [List.foldlM_cons, hg]
    refine (ih gs' hgs _).trans ?_
    simp

theorem mapM_ok_of {α β : Type} {f : α → Outcome β} {g : α → β} {l : List α}
    (h : ∀ x ∈ l, f x = .ok (g x)) : l.mapM f = .ok (l.map g) := by
  induction l with
  | nil => rfl
  | cons a l ih =>
    rw [List.mapM_cons, h a (by simp), ih fun x hx => h x (by simp [hx])]
    rfl

theorem yamlItems_serialized (items : List Item) :
    yamlItems (toSerializedCorr items) = .ok ((itemMap items).flatMap groupItems) := by
  have h1 : (toSerializedCorr items).get (c! "items") =
      some (.mapping ((itemMap items).map fun e => (.string e.1, .sequence (e.2.map .string)))) := by
    unfold toSerializedCorr YValue.get
    dsimp only
    rw [List.find?_cons_of_pos rfl]
    rfl
  unfold yamlItems
  simp only [h1, YValue.asMapping, unwrap, Outcome.ok_bind]
  refine (yaml_items_fold _ ((itemMap items).map groupItems) ?_ []).trans ?_
  · generalize itemMap items = m
    induction m with
    | nil => rfl
    | cons e m ih =>
      rw [List.map_cons, List.mapM_cons, yamlEntry_sequence, ih]
      rfl
  · simp [List.flatMap]

end Chanoma
