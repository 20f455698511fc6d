import Verif.Proofs.Order
/-! # Lemmas about sorting, addition and subtraction of correspondences -/

namespace Chanoma

/-- Increasing listing (possibly with repetitions). -/
abbrev Sorted (l : List Item) : Prop := l.Pairwise ItemLe

/-- Strictly increasing listing. -/
abbrev SSorted (l : List Item) : Prop := l.Pairwise ItemLt

theorem insertItem_perm (a : Item) (l : List Item) : (insertItem a l).Perm (a :: l) := by
  induction l with
  | nil => exact .refl _
  | cons b l ih =>
    simp only [insertItem]
    split
    · exact .refl _
    · exact (ih.cons b).trans (.swap a b l)

theorem sortItems_perm (l : List Item) : (sortItems l).Perm l := by
  induction l with
  | nil => exact .refl _
  | cons a l ih => exact (insertItem_perm a _).trans (ih.cons a)

theorem insertItem_sorted (a : Item) {l : List Item} (h : Sorted l) : Sorted (insertItem a l) := by
  induction l with
  | nil => simp [insertItem, Sorted]
  | cons b l ih =>
    have hb := List.pairwise_cons.mp h
    simp only [insertItem]
    split
    · rename_i hab
      rw [Item.le_iff] at hab
      refine List.pairwise_cons.mpr ⟨?_, h⟩
      intro x hx
      rcases List.mem_cons.mp hx with rfl | hx
      · exact hab
      · exact hab.trans (hb.1 x hx)
    · rename_i hab
      rw [Item.le_iff] at hab
      refine List.pairwise_cons.mpr ⟨?_, ih hb.2⟩
      intro x hx
      rcases List.mem_cons.mp ((insertItem_perm a l).mem_iff.mp hx) with rfl | hx
      · exact (ItemLe.total x b).resolve_left hab
      · exact hb.1 x hx

theorem sortItems_sorted (l : List Item) : Sorted (sortItems l) := by
  induction l with
  | nil => exact .nil
  | cons a l ih => exact insertItem_sorted a ih

/-- Two increasing listings of the same items are equal. -/
theorem sorted_perm_eq {l m : List Item} (hl : Sorted l) (hm : Sorted m) (h : l.Perm m) : l = m :=
  h.eq_of_pairwise (fun _ _ _ _ h1 h2 => ItemLe.antisymm h1 h2) hl hm

/-- Any sorting algorithm gives the list that `sortItems` gives. -/
theorem sortItems_unique {l m : List Item} (hm : Sorted m) (h : m.Perm l) : sortItems l = m :=
  sorted_perm_eq (sortItems_sorted l) hm ((sortItems_perm l).trans h.symm)

theorem sortItems_congr {l m : List Item} (h : l.Perm m) : sortItems l = sortItems m :=
  sortItems_unique (sortItems_sorted m) ((sortItems_perm m).trans h.symm)

theorem SSorted.sorted {l : List Item} (h : SSorted l) : Sorted l := h.imp fun h => h.1

theorem SSorted.nodup {l : List Item} (h : SSorted l) : l.Nodup := h.imp fun h => h.2

theorem Sorted.ssorted {l : List Item} (h : Sorted l) (hn : l.Nodup) : SSorted l := by
  exact List.Pairwise.imp₂ (fun _ _ h1 h2 => ⟨h1, h2⟩) h hn

theorem mem_hset_foldl {α : Type} [DecidableEq α] (l : List α) : ∀ (s : List α) (x : α),
    x ∈ l.foldl hsetInsert s ↔ x ∈ s ∨ x ∈ l := by
  induction l with
  | nil => simp
  | cons a l ih =>
    intro s x
    simp only [List.foldl_cons, ih, List.mem_cons, hsetInsert]
    split
    · constructor
      · rintro (h | h) <;> simp [h]
      · rintro (h | rfl | h) <;> simp [*]
    · simp only [List.mem_append, List.mem_singleton, or_assoc]

theorem nodup_hset_foldl {α : Type} [DecidableEq α] (l : List α) : ∀ (s : List α), s.Nodup →
    (l.foldl hsetInsert s).Nodup := by
  induction l with
  | nil => intro s h; exact h
  | cons a l ih =>
    intro s h
    apply ih
    unfold hsetInsert
    split
    · exact h
    · rename_i ha
      rw [List.nodup_append]
      refine ⟨h, by simp, ?_⟩
      intro x hx y hy
      simp only [List.mem_singleton] at hy
      rintro rfl
      exact ha (hy ▸ hx)

theorem mem_corrAdd {σ : Oracle} {a b : List Item} {x : Item} :
    x ∈ corrAdd σ a b ↔ x ∈ a ∨ x ∈ b := by
  unfold corrAdd
  rw [(sortItems_perm _).mem_iff, (σ.iter_perm _).mem_iff, mem_hset_foldl, mem_hset_foldl]
  simp

theorem corrAdd_ssorted (σ : Oracle) (a b : List Item) : SSorted (corrAdd σ a b) := by
  refine (sortItems_sorted _).ssorted ?_
  rw [(sortItems_perm _).nodup_iff, (σ.iter_perm _).nodup_iff]
  exact nodup_hset_foldl _ _ (nodup_hset_foldl _ _ .nil)

theorem ssorted_ext {l m : List Item} (hl : SSorted l) (hm : SSorted m)
    (h : ∀ x, x ∈ l ↔ x ∈ m) : l = m :=
  sorted_perm_eq hl.sorted hm.sorted ((List.perm_ext_iff_of_nodup hl.nodup hm.nodup).mpr h)

theorem corrSub_eq (a b : List Item) : corrSub a b = sortItems (a.filter fun x => x ∉ b) := by
  unfold corrSub
  congr 1
  suffices ∀ acc : List Item, a.foldl (fun items item => if b.contains item then items else items ++ [item]) acc
      = acc ++ a.filter fun x => x ∉ b by simpa using this []
  induction a with
  | nil => simp
  | cons x a ih =>
    intro acc
    rw [List.foldl_cons, ih]
    by_cases h : x ∈ b <;> simp [h]

theorem mem_corrSub {a b : List Item} {x : Item} : x ∈ corrSub a b ↔ x ∈ a ∧ x ∉ b := by
  rw [corrSub_eq, (sortItems_perm _).mem_iff]; simp

theorem corrSub_ssorted {a : List Item} (b : List Item) (h : a.Nodup) : SSorted (corrSub a b) := by
  refine (by rw [corrSub_eq]; exact sortItems_sorted _ : Sorted _).ssorted ?_
  rw [corrSub_eq, (sortItems_perm _).nodup_iff]
  exact h.filter _

end Chanoma
