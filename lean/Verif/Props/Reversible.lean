import Verif.Props.Conversion
/-! # C76: which tables do the same, which are reversible -/

namespace Chanoma

theorem perm_of_subset {α : Type} [DecidableEq α] (s l : List α) (hs : s.Nodup) (h : ∀ x ∈ s, x ∈ l)
    (hl : l.length ≤ s.length) : s.Perm l := by
  induction s generalizing l with
  | nil => rw [List.length_nil] at hl; rw [List.eq_nil_of_length_eq_zero (Nat.le_zero.1 hl)]
  | cons a s ih =>
    have ha : a ∈ l := h a (by simp)
    obtain ⟨h1, h2⟩ := List.nodup_cons.1 hs
    have := ih (l.erase a) h2 (fun x hx => (List.mem_erase_of_ne (fun e : x = a => h1 (by rw [← e]; exact hx))).2 (h x (by simp [hx])))
      (by rw [List.length_erase_of_mem ha]; simp at hl; omega)
    exact (this.cons a).trans (List.perm_cons_erase ha).symm

theorem exists_nodup {α : Type} [DecidableEq α] (l : List α) : ∃ s : List α, s.Nodup ∧ ∀ x, x ∈ s ↔ x ∈ l := by
  induction l with
  | nil => exact ⟨[], by simp, by simp⟩
  | cons a l ih =>
    obtain ⟨s, h1, h2⟩ := ih
    by_cases ha : a ∈ s
    · refine ⟨s, h1, fun x => ?_⟩
      rw [h2, List.mem_cons]
      exact ⟨.inr, fun h => h.elim (fun e => e ▸ (h2 a).1 ha) id⟩
    · exact ⟨a :: s, by simp [ha, h1], fun x => by simp [h2]⟩

theorem inj_of_nodup {α β : Type} {g : α → β} {s : List α} (h : (s.map g).Nodup) {x y : α} (hx : x ∈ s)
    (hy : y ∈ s) (e : g x = g y) : x = y := by
  induction s with
  | nil => cases hx
  | cons a s ih =>
    obtain ⟨h1, h2⟩ := List.nodup_cons.1 h
    rcases List.mem_cons.1 hx with hx | hx <;> rcases List.mem_cons.1 hy with hy | hy
    · rw [hx, hy]
    · exact (h1 (List.mem_map.2 ⟨y, hy, by rw [← e, hx]⟩)).elim
    · exact (h1 (List.mem_map.2 ⟨x, hx, by rw [e, hy]⟩)).elim
    · exact ih h2 hx hy

/-- A substitution that changes finitely many characters is injective iff it is surjective. -/
theorem subst_inj_iff_surj (f : Char → Option Char) (l : List Char) (hl : ∀ c d, f c = some d → c ∈ l) :
    (∀ x y, (f x).getD x = (f y).getD y → x = y) ↔ ∀ y d, f y = some d → ∃ x, f x = some y := by
  obtain ⟨s, hs, hmem⟩ := exists_nodup (l.filter fun c => (f c).isSome)
  have hmem : ∀ x, x ∈ s ↔ (f x).isSome = true := fun x => by
    rw [hmem, List.mem_filter]
    refine ⟨fun h => h.2, fun h => ⟨?_, h⟩⟩
    obtain ⟨d, hd⟩ := Option.isSome_iff_exists.1 h
    exact hl x d hd
  have hout : ∀ x, x ∉ s → (f x).getD x = x := fun x h => by
    rw [hmem] at h
    cases hx : f x with
    | none => rfl
    | some d => simp [hx] at h
  constructor
  · intro hi y d hy
    have hin : ∀ x ∈ s, (f x).getD x ∈ s := fun x hx => Classical.byContradiction fun hn => by
      have := hi ((f x).getD x) x (hout _ hn)
      rw [this] at hn
      exact hn hx
    have hp := perm_of_subset (s.map fun x => (f x).getD x) s
      (List.pairwise_map.2 (List.Pairwise.imp (fun {a b} hab he => hab (hi a b he)) hs)) (by simpa using hin) (by simp)
    have hys : y ∈ s := by simp [hmem, hy]
    obtain ⟨x, hx, rfl⟩ := List.mem_map.1 (hp.mem_iff.2 hys)
    rw [hmem] at hx
    obtain ⟨e, he⟩ := Option.isSome_iff_exists.1 hx
    exact ⟨x, by simp [he]⟩
  · intro hsur
    have hp := perm_of_subset s (s.map fun x => (f x).getD x) hs (fun y hy => by
      rw [hmem] at hy
      obtain ⟨d, hd⟩ := Option.isSome_iff_exists.1 hy
      obtain ⟨x, hx⟩ := hsur y d hd
      exact List.mem_map.2 ⟨x, by simp [hmem, hx], by simp [hx]⟩) (by simp)
    have hn : (s.map fun x => (f x).getD x).Nodup := hp.nodup_iff.1 hs
    have hin : ∀ x ∈ s, (f x).getD x ∈ s := fun x hx => hp.mem_iff.2 (List.mem_map.2 ⟨x, hx, rfl⟩)
    intro x y h
    by_cases hx : x ∈ s <;> by_cases hy : y ∈ s
    · exact inj_of_nodup hn hx hy h
    · exact absurd (h ▸ hin x hx) (by rw [hout y hy]; exact hy)
    · exact absurd (h ▸ hin y hy) (by rw [hout x hx]; exact hx)
    · rwa [hout x hx, hout y hy] at h

theorem itemSubst_mem {items : List Item} {c d : Char} (h : itemSubst items c = some d) :
    c ∈ items.filterMap (·.from.head?) := by
  unfold itemSubst at h
  split at h
  · rename_i i hi
    have h1 := List.mem_of_find?_eq_some hi
    have h2 := List.find?_some hi
    exact List.mem_filterMap.2 ⟨i, by simpa using h1, by simpa using h2⟩
  · cases h

theorem fromTable_normalize (t : Table) (c : Chanoma) (hc : Chanoma.fromTable t = .ok c) (σs : Nat → Oracle)
    (debug : Bool) (text : Str) : c.normalize σs debug text = .ok (substitute (itemSubst t.items) text) := by
  have hne : CellsNonEmpty t.items := Classical.byContradiction fun h => by
    simp [Chanoma.fromTable, fromTables_one_panic t h] at hc
  obtain ⟨c', h1, h2⟩ := C01_table_substitution t hne
  rw [h1] at hc; cases hc
  exact h2 σs debug text

/-- C76: two tables do the same to all texts iff they replace every character by the same one (no item
counting as an item from the character to itself). -/
theorem C76_same_iff (t t' : Table) (c c' : Chanoma) (hc : Chanoma.fromTable t = .ok c)
    (hc' : Chanoma.fromTable t' = .ok c') (σs τs : Nat → Oracle) (debug debug' : Bool) :
    (∀ text, c.normalize σs debug text = c'.normalize τs debug' text) ↔
      ∀ ch, (itemSubst t.items ch).getD ch = (itemSubst t'.items ch).getD ch := by
  simp only [fromTable_normalize t c hc, fromTable_normalize t' c' hc', Outcome.ok.injEq]
  constructor
  · intro h ch
    simpa [substitute] using h [ch]
  · intro h text
    exact List.map_congr_left fun ch _ => h ch

/-- C76: two texts come out alike iff they are equally long and have, place by place, characters that
are replaced by the same one. -/
theorem C76_alike_iff (t : Table) (c : Chanoma) (hc : Chanoma.fromTable t = .ok c) (σs τs : Nat → Oracle)
    (debug debug' : Bool) (a b : Str) :
    c.normalize σs debug a = c.normalize τs debug' b ↔ a.length = b.length ∧
      ∀ (i : Nat) x y, a[i]? = some x → b[i]? = some y →
        (itemSubst t.items x).getD x = (itemSubst t.items y).getD y := by
  simp only [fromTable_normalize t c hc, Outcome.ok.injEq, substitute]
  constructor
  · intro h
    refine ⟨by simpa using congrArg List.length h, fun i x y hx hy => ?_⟩
    simpa [hx, hy] using congrArg (·[i]?) h
  · rintro ⟨hl, h⟩
    refine List.ext_getElem (by simpa using hl) fun i h1 h2 => ?_
    simp only [List.length_map] at h1 h2
    simp only [List.getElem_map]
    exact h i _ _ (List.getElem?_eq_getElem h1) (List.getElem?_eq_getElem h2)

/-- C76: different texts always come out differently iff every text can come out, and both hold iff
every character that is replaced is put in the place of another (or the same) one. -/
theorem C76_reversible_iff (t : Table) (c : Chanoma) (hc : Chanoma.fromTable t = .ok c) (σs τs : Nat → Oracle)
    (debug debug' : Bool) :
    ((∀ a b, c.normalize σs debug a = c.normalize τs debug' b → a = b) ↔
      ∀ y d, itemSubst t.items y = some d → ∃ x, itemSubst t.items x = some y) ∧
    ((∀ out, ∃ text, c.normalize σs debug text = .ok out) ↔
      ∀ y d, itemSubst t.items y = some d → ∃ x, itemSubst t.items x = some y) := by
  simp only [fromTable_normalize t c hc, Outcome.ok.injEq]
  constructor
  · rw [← subst_inj_iff_surj _ _ fun c d => itemSubst_mem]
    constructor
    · intro h x y hxy
      have := h [x] [y] (by simpa [substitute] using hxy)
      simpa using this
    · intro h a b hab
      induction a generalizing b with
      | nil => cases b with
        | nil => rfl
        | cons y b => simp [substitute] at hab
      | cons x a ih => cases b with
        | nil => simp [substitute] at hab
        | cons y b =>
          simp only [substitute, List.map_cons, List.cons.injEq] at hab
          rw [h x y hab.1, ih b hab.2]
  · constructor
    · intro h y d hy
      obtain ⟨text, ht⟩ := h [y]
      cases text with
      | nil => simp [substitute] at ht
      | cons x text =>
        simp only [substitute, List.map_cons, List.cons.injEq] at ht
        cases hx : itemSubst t.items x with
        | none =>
          have : x = y := by simpa [hx] using ht.1
          rw [this, hy] at hx; cases hx
        | some e => exact ⟨x, by rw [hx, ← ht.1, hx]; rfl⟩
    · intro h out
      induction out with
      | nil => exact ⟨[], rfl⟩
      | cons y out ih =>
        obtain ⟨text, ht⟩ := ih
        cases hy : itemSubst t.items y with
        | none => exact ⟨y :: text, by simp only [substitute, List.map_cons, hy]; exact congrArg _ ht⟩
        | some d =>
          obtain ⟨x, hx⟩ := h y d hy
          exact ⟨x :: text, by simp only [substitute, List.map_cons, hx]; exact congrArg _ ht⟩

/-- The table that exchanges `a` and `b` is reversible, the one from `a` to `b` is not. -/
example : (∀ y d, itemSubst [⟨c! "a", c! "b"⟩, ⟨c! "b", c! "a"⟩] y = some d →
      ∃ x, itemSubst [⟨c! "a", c! "b"⟩, ⟨c! "b", c! "a"⟩] x = some y) ∧
    ¬ ∀ y d, itemSubst [⟨c! "a", c! "b"⟩] y = some d → ∃ x, itemSubst [⟨c! "a", c! "b"⟩] x = some y := by
  constructor
  · intro y d h
    have := itemSubst_mem h
    simp at this
    rcases this with rfl | rfl
    · exact ⟨'b', by decide⟩
    · exact ⟨'a', by decide⟩
  · intro h
    obtain ⟨x, hx⟩ := h 'a' 'b' (by decide)
    have := itemSubst_mem hx
    simp at this
    subst this
    exact absurd hx (by decide)

end Chanoma
