import Verif.Proofs.Corr
/-! # Lemmas about `item_map` -/

namespace Chanoma

/-- Keys strictly increasing. -/
abbrev KSorted (m : List (Str × List Str)) : Prop :=
  m.Pairwise fun e f => LexLe e.1 f.1 ∧ e.1 ≠ f.1

theorem btreePush_keys (m : List (Str × List Str)) (k v : Str) (e : Str × List Str)
    (h : e ∈ btreePush m k v) : e.1 = k ∨ ∃ f ∈ m, f.1 = e.1 := by
  induction m with
  | nil => simp [btreePush] at h; simp [h]
  | cons a m ih =>
    obtain ⟨k', vs⟩ := a
    simp only [btreePush] at h
    split at h
    · rename_i hk
      rcases List.mem_cons.mp h with rfl | h
      · exact .inl hk.symm
      · exact .inr ⟨e, by simp [h], rfl⟩
    · split at h
      · rcases List.mem_cons.mp h with rfl | h
        · exact .inl rfl
        · exact .inr ⟨e, h, rfl⟩
      · rcases List.mem_cons.mp h with rfl | h
        · exact .inr ⟨(k', vs), by simp, rfl⟩
        · rcases ih h with h | ⟨f, hf, he⟩
          · exact .inl h
          · exact .inr ⟨f, by simp [hf], he⟩

theorem btreePush_sorted {m : List (Str × List Str)} (k v : Str) (hm : KSorted m) :
    KSorted (btreePush m k v) := by
  induction m with
  | nil => simp [btreePush, KSorted]
  | cons a m ih =>
    obtain ⟨k', vs⟩ := a
    have ha := List.pairwise_cons.mp hm
    simp only [btreePush]
    split
    · exact List.pairwise_cons.mpr ha
    · rename_i hne
      split
      · rename_i hle
        rw [strLe_iff_lexLe] at hle
        refine List.pairwise_cons.mpr ⟨?_, hm⟩
        intro f hf
        rcases List.mem_cons.mp hf with rfl | hf
        · exact ⟨hle, hne⟩
        · have := ha.1 f hf
          refine ⟨hle.trans this.1, fun e => ?_⟩
          dsimp only at this e
          rw [e] at hle
          exact this.2 (this.1.antisymm hle)
      · rename_i hle
        rw [strLe_iff_lexLe] at hle
        refine List.pairwise_cons.mpr ⟨?_, ih ha.2⟩
        intro f hf
        rcases btreePush_keys m k v f hf with h | ⟨g, hg, he⟩
        · rw [h]
          exact ⟨(LexLe.total k k').resolve_left hle, fun e => hne e.symm⟩
        · rw [← he]; exact ha.1 g hg

theorem mem_btreePush {m : List (Str × List Str)} (k v : Str) (hm : KSorted m) (k' : Str)
    (vs : List Str) : (k', vs) ∈ btreePush m k v ↔
      (k' ≠ k ∧ (k', vs) ∈ m) ∨
      (k' = k ∧ ∃ ws, vs = ws ++ [v] ∧ ((k, ws) ∈ m ∨ (ws = [] ∧ ∀ u, (k, u) ∉ m))) := by
  induction m with
  | nil =>
    simp only [btreePush, List.mem_singleton, Prod.mk.injEq, List.not_mem_nil, and_false, false_or,
      not_false_eq_true, implies_true, and_true]
    constructor
    · rintro ⟨rfl, rfl⟩; exact ⟨rfl, [], by simp⟩
    · rintro ⟨rfl, ws, rfl, rfl⟩; simp
  | cons a m ih =>
    obtain ⟨k0, vs0⟩ := a
    have ha := List.pairwise_cons.mp hm
    have ih := ih ha.2
    simp only [btreePush]
    split
    · rename_i hk
      subst hk
      simp only [List.mem_cons, Prod.mk.injEq]
      constructor
      · rintro (⟨rfl, rfl⟩ | h)
        · exact .inr ⟨rfl, vs0, rfl, .inl (.inl ⟨trivial, rfl⟩)⟩
        · exact .inl ⟨fun e => (ha.1 _ h).2 e.symm, .inr h⟩
      · rintro (⟨hne, h | h⟩ | ⟨rfl, ws, rfl, (h | h) | h⟩)
        · exact absurd h.1 hne
        · exact .inr h
        · exact .inl ⟨rfl, by rw [h.2]⟩
        · exact absurd rfl (ha.1 _ h).2
        · exact absurd (.inl ⟨trivial, rfl⟩) (h.2 vs0)
    · rename_i hne
      split
      · rename_i hle
        rw [strLe_iff_lexLe] at hle
        have hno : ∀ u, (k, u) ∉ (k0, vs0) :: m := by
          intro u hu
          rcases List.mem_cons.mp hu with h | h
          · exact hne (congrArg Prod.fst h)
          · exact (ha.1 _ h).2 ((ha.1 _ h).1.antisymm hle)
        rw [List.mem_cons]
        constructor
        · rintro (h | h)
          · cases h
            exact .inr ⟨rfl, [], rfl, .inr ⟨rfl, hno⟩⟩
          · refine .inl ⟨?_, h⟩
            rintro rfl
            exact hno _ h
        · rintro (⟨_, h⟩ | ⟨rfl, ws, rfl, h | h⟩)
          · exact .inr h
          · exact absurd h (hno _)
          · rw [h.1]; exact .inl rfl
      · rw [List.mem_cons, ih]
        simp only [List.mem_cons, Prod.mk.injEq]
        constructor
        · rintro (⟨rfl, rfl⟩ | ⟨h1, h2⟩ | ⟨rfl, ws, rfl, h | ⟨h1, h2⟩⟩)
          · exact .inl ⟨fun e => hne e.symm, .inl ⟨rfl, rfl⟩⟩
          · exact .inl ⟨h1, .inr h2⟩
          · exact .inr ⟨rfl, ws, rfl, .inl (.inr h)⟩
          · refine .inr ⟨rfl, ws, rfl, .inr ⟨h1, ?_⟩⟩
            rintro u (⟨h, _⟩ | h)
            · exact hne h
            · exact h2 u h
        · rintro (⟨h1, h | h⟩ | ⟨rfl, ws, rfl, (h | h) | ⟨h1, h2⟩⟩)
          · exact .inl h
          · exact .inr (.inl ⟨h1, h⟩)
          · exact absurd h.1 hne
          · exact .inr (.inr ⟨rfl, ws, rfl, .inl h⟩)
          · exact .inr (.inr ⟨rfl, ws, rfl, .inr ⟨h1, fun u hu => h2 u (.inr hu)⟩⟩)

/-- The `from` values of the items with this `to`, in listing order. -/
def fromsOf (items : List Item) (k : Str) : List Str :=
  (items.filter fun i => i.to = k).map fun i => i.from

theorem itemMap_inv (items : List Item) : KSorted (itemMap items) ∧
    ∀ k vs, (k, vs) ∈ itemMap items ↔ vs ≠ [] ∧ vs = fromsOf items k := by
  suffices ∀ (pre post : List Item) (m : List (Str × List Str)), KSorted m →
      (∀ k vs, (k, vs) ∈ m ↔ vs ≠ [] ∧ vs = fromsOf pre k) →
      KSorted (post.foldl (fun m item => btreePush m item.to item.from) m) ∧
      ∀ k vs, (k, vs) ∈ post.foldl (fun m item => btreePush m item.to item.from) m ↔
        vs ≠ [] ∧ vs = fromsOf (pre ++ post) k from
    this [] items [] .nil (by intro k vs; simp [fromsOf])
  intro pre post
  induction post generalizing pre with
  | nil => intro m h1 h2; simpa using ⟨h1, h2⟩
  | cons i post ih =>
    intro m h1 h2
    have := ih (pre ++ [i]) (btreePush m i.to i.from) (btreePush_sorted _ _ h1) (by
      intro k vs
      rw [mem_btreePush _ _ h1]
      have hf : fromsOf (pre ++ [i]) k = fromsOf pre k ++ (if i.to = k then [i.from] else []) := by
        unfold fromsOf
        rw [List.filter_append, List.map_append]
        by_cases h : i.to = k <;> simp [h]
      rw [hf]
      constructor
      · rintro (⟨hk, h⟩ | ⟨rfl, ws, rfl, h | ⟨rfl, h⟩⟩)
        · rw [if_neg (fun e => hk e.symm)]; simpa using (h2 _ _).mp h
        · rw [if_pos rfl, ← ((h2 _ _).mp h).2]; simp
        · rw [if_pos rfl]
          have : fromsOf pre i.to = [] := by
            refine Decidable.byContradiction fun hc => ?_
            exact h _ ((h2 _ _).mpr ⟨hc, rfl⟩)
          simp [this]
      · rintro ⟨hne, rfl⟩
        by_cases hk : i.to = k
        · subst hk
          rw [if_pos rfl]
          refine .inr ⟨rfl, _, rfl, ?_⟩
          by_cases hc : fromsOf pre i.to = []
          · refine .inr ⟨hc, fun u hu => ?_⟩
            have := (h2 _ _).mp hu
            exact this.1 (this.2.trans hc)
          · exact .inl ((h2 _ _).mpr ⟨hc, rfl⟩)
        · rw [if_neg hk] at hne ⊢
          refine .inl ⟨fun e => hk e.symm, (h2 _ _).mpr ?_⟩
          simpa using hne)
    simpa using this

theorem itemMap_sorted (items : List Item) : KSorted (itemMap items) := (itemMap_inv items).1

theorem mem_itemMap {items : List Item} {k : Str} {vs : List Str} :
    (k, vs) ∈ itemMap items ↔ vs ≠ [] ∧ vs = fromsOf items k := (itemMap_inv items).2 k vs

end Chanoma
