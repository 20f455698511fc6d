import Verif.Spec.Settled
import Verif.Props.Pipeline
import Verif.Props.Conversion
/-! # C62: tables in sequence chain, items of one table do not -/

namespace Chanoma

theorem itemSubst_append (l r : List Item) (hr : CellsNonEmpty r) (ch : Char) :
    itemSubst (l ++ r) ch = (itemSubst r ch).or (itemSubst l ch) := by
  unfold itemSubst
  rw [List.reverse_append, List.find?_append]
  cases h : List.find? (fun i => decide (i.from.head? = some ch)) r.reverse with
  | none => simp
  | some i =>
    have hi := (hr i (by simpa using List.mem_of_find?_eq_some h)).2
    obtain ⟨d, hd⟩ : ∃ d, i.to.head? = some d := by
      cases h2 : i.to with
      | nil => exact absurd h2 hi
      | cons d _ => exact ⟨d, rfl⟩
    simp [hd]

theorem itemSubst_retarget (g : Char → Option Char) (l : List Item) (ch : Char) :
    itemSubst (l.map fun i => ⟨i.from, substitute g i.to⟩) ch =
      (itemSubst l ch).map fun d => (g d).getD d := by
  unfold itemSubst
  rw [← List.map_reverse, List.find?_map]
  simp only [Function.comp_def]
  cases h : List.find? (fun i => decide (i.from.head? = some ch)) l.reverse with
  | none => simp
  | some i => simp [substitute]

theorem merged_cells {t t' : List Item} (h : CellsNonEmpty t) (h' : CellsNonEmpty t') :
    CellsNonEmpty (mergedItems t t') := by
  intro i hi
  rw [mergedItems, List.mem_append, List.mem_map] at hi
  rcases hi with hi | ⟨j, hj, rfl⟩
  · exact h' i hi
  · simpa [substitute] using h j hj

theorem substitute_merged {t t' : List Item} (h : CellsNonEmpty t) (text : Str) :
    substitute (itemSubst (mergedItems t t')) text =
      substitute (itemSubst t') (substitute (itemSubst t) text) := by
  have hr : CellsNonEmpty (t.map fun i => ⟨i.from, substitute (itemSubst t') i.to⟩) := by
    intro i hi
    obtain ⟨j, hj, rfl⟩ := List.mem_map.mp hi
    simpa [substitute] using h j hj
  simp only [substitute, List.map_map]
  refine List.map_congr_left fun ch _ => ?_
  simp only [Function.comp_def]
  rw [mergedItems, itemSubst_append _ _ hr, itemSubst_retarget]
  cases h1 : itemSubst t ch <;> simp

theorem two_tables (t t' : Table) (h : CellsNonEmpty t.items) (h' : CellsNonEmpty t'.items) :
    ∃ c, [Call.addTable t, .addTable t'].foldlM Call.run Chanoma.new = .ok c ∧
      ∀ σs debug text, c.normalize σs debug text =
        .ok (substitute (itemSubst t'.items) (substitute (itemSubst t.items) text)) := by
  obtain ⟨c, hc⟩ := (C22_call_order Chanoma.new [.addTable t, .addTable t']).1.2
    (by simp [Call.Accepted, h, h'])
  refine ⟨c, hc, fun σs debug text => ?_⟩
  have := C22_from_new _ c hc σs text
  cases debug with
  | false => simpa [Call.meaning] using this.1
  | true => simpa [Call.meaning] using this.2 (by simp)

/-- C62: adding a table and then another is the same as adding one table, in which the targets of
the first are changed by the second. -/
theorem C62_sequence_is_one_table (t t' : Table) (h : CellsNonEmpty t.items)
    (h' : CellsNonEmpty t'.items) (origin : Origin) :
    ∃ c m, [Call.addTable t, .addTable t'].foldlM Call.run Chanoma.new = .ok c ∧
      Chanoma.fromTable (Table.fromCorr (mergedItems t.items t'.items) origin) = .ok m ∧
      ∀ σs τs debug debug' text, c.normalize σs debug text = m.normalize τs debug' text := by
  obtain ⟨c, h1, h2⟩ := two_tables t t' h h'
  obtain ⟨m, h3, h4⟩ := C01_table_substitution
    (Table.fromCorr (mergedItems t.items t'.items) origin) (merged_cells h h')
  refine ⟨c, m, h1, h3, fun σs τs debug debug' text => ?_⟩
  rw [h2, h4]
  exact congrArg _ (substitute_merged h text).symm

/-- C62: in one table, `a` to `b` and `b` to `d` leave `b` for `a`, whatever the order of the
items; in two tables, one after the other, `a` becomes `d`. -/
theorem C62_chaining (a b d : Char) (hab : a ≠ b) (o : Origin) (items : List Item)
    (hi : items = [⟨[a], [b]⟩, ⟨[b], [d]⟩] ∨ items = [⟨[b], [d]⟩, ⟨[a], [b]⟩]) :
    ∃ one two, Chanoma.fromTable (Table.fromCorr items o) = .ok one ∧
      [Call.addTable (Table.fromCorr [⟨[a], [b]⟩] o), .addTable (Table.fromCorr [⟨[b], [d]⟩] o)].foldlM
        Call.run Chanoma.new = .ok two ∧
      ∀ σs debug, one.normalize σs debug [a] = .ok [b] ∧ two.normalize σs debug [a] = .ok [d] := by
  obtain ⟨one, h1, h2⟩ := C01_table_substitution (Table.fromCorr items o) (by
    intro i hm
    rcases hi with rfl | rfl <;>
    · simp only [Table.items, Table.fromCorr, List.mem_cons, List.not_mem_nil, or_false] at hm
      rcases hm with rfl | rfl <;> simp)
  obtain ⟨two, h3, h4⟩ := two_tables (Table.fromCorr [⟨[a], [b]⟩] o) (Table.fromCorr [⟨[b], [d]⟩] o)
    (by simp [CellsNonEmpty, Table.items, Table.fromCorr])
    (by simp [CellsNonEmpty, Table.items, Table.fromCorr])
  refine ⟨one, two, h1, h3, fun σs debug => ?_⟩
  rw [h2, h4]
  rcases hi with rfl | rfl <;>
    simp [substitute, itemSubst, Table.items, Table.fromCorr, List.find?_cons, Ne.symm hab]

/-- C62: exactly when the order of two tables does not matter. -/
theorem C62_order_iff (t t' : Table) (c c' : Chanoma)
    (hc : [Call.addTable t, .addTable t'].foldlM Call.run Chanoma.new = .ok c)
    (hc' : [Call.addTable t', .addTable t].foldlM Call.run Chanoma.new = .ok c')
    (σs τs : Nat → Oracle) (debug : Bool) :
    (∀ text, c.normalize σs debug text = c'.normalize τs debug text) ↔
      ∀ ch, substitute (itemSubst t'.items) (substitute (itemSubst t.items) [ch]) =
        substitute (itemSubst t.items) (substitute (itemSubst t'.items) [ch]) := by
  have hacc := (C22_call_order Chanoma.new _).1.1 ⟨c, hc⟩
  have h : CellsNonEmpty t.items := hacc (.addTable t) (by simp)
  have h' : CellsNonEmpty t'.items := hacc (.addTable t') (by simp)
  obtain ⟨c1, h1, h2⟩ := two_tables t t' h h'
  obtain ⟨c2, h3, h4⟩ := two_tables t' t h' h
  rw [h1] at hc; cases hc
  rw [h3] at hc'; cases hc'
  simp only [h2, h4, Outcome.ok.injEq]
  constructor
  · intro hh ch
    exact hh [ch]
  · intro hh text
    simp only [substitute, List.map_map]
    refine List.map_congr_left fun ch _ => ?_
    simpa [substitute] using hh ch

/-- C62: two tables can be exchanged if no first character of a source of one is the first
character of a source or of a target of the other. -/
theorem C62_independent_tables (t t' : Table) (c c' : Chanoma)
    (hc : [Call.addTable t, .addTable t'].foldlM Call.run Chanoma.new = .ok c)
    (hc' : [Call.addTable t', .addTable t].foldlM Call.run Chanoma.new = .ok c')
    (hi : ∀ i ∈ t.items, ∀ j ∈ t'.items, i.from.head? ≠ j.from.head? ∧ i.from.head? ≠ j.to.head? ∧
      i.to.head? ≠ j.from.head?) (σs τs : Nat → Oracle) (debug : Bool) (text : Str) :
    c.normalize σs debug text = c'.normalize τs debug text := by
  refine (C62_order_iff t t' c c' hc hc' σs τs debug).mpr (fun ch => ?_) text
  have key : ∀ (l : List Item) (x y : Char), itemSubst l x = some y →
      ∃ i ∈ l, i.from.head? = some x ∧ i.to.head? = some y := by
    intro l x y hxy
    unfold itemSubst at hxy
    cases hf : List.find? (fun i => decide (i.from.head? = some x)) l.reverse with
    | none => rw [hf] at hxy; cases hxy
    | some i =>
      rw [hf] at hxy
      exact ⟨i, by simpa using List.mem_of_find?_eq_some hf, by simpa using List.find?_some hf, hxy⟩
  have none_of : ∀ (l : List Item) (x : Char), (∀ i ∈ l, i.from.head? ≠ some x) → itemSubst l x = none := by
    intro l x hx
    cases h : itemSubst l x with
    | none => rfl
    | some y =>
      obtain ⟨i, hi, h1, -⟩ := key l x y h
      exact absurd h1 (hx i hi)
  simp only [substitute, List.map_cons, List.map_nil]
  cases h1 : itemSubst t.items ch with
  | some d =>
    obtain ⟨i, hi1, hi2, hi3⟩ := key _ _ _ h1
    rw [none_of t'.items ch (fun j hj => by have := (hi i hi1 j hj).1; rw [hi2] at this; exact fun e => this e.symm)]
    simp only [Option.getD_some, Option.getD_none]
    rw [none_of t'.items d (fun j hj => by have := (hi i hi1 j hj).2.2; rw [hi3] at this; exact fun e => this e.symm), h1]
    rfl
  | none =>
    simp only [Option.getD_none]
    cases h2 : itemSubst t'.items ch with
    | none => simp [h1]
    | some d =>
      obtain ⟨j, hj1, hj2, hj3⟩ := key _ _ _ h2
      simp only [Option.getD_some]
      rw [none_of t.items d (fun i hi1 => by have := (hi i hi1 j hj1).2.1; rw [hj3] at this; exact this)]
      rfl

/-- C62: a table normalises idempotently if and only if no target is changed again. -/
theorem C62_idempotent_iff (t : Table) (c : Chanoma) (hc : Chanoma.fromTable t = .ok c)
    (σs τs : Nat → Oracle) (debug : Bool) :
    (∀ text out, c.normalize σs debug text = .ok out → c.normalize τs debug out = .ok out) ↔
      ∀ ch d, itemSubst t.items ch = some d → (itemSubst t.items d).getD d = d := by
  have hne : CellsNonEmpty t.items := Classical.byContradiction fun h => by
    simp [Chanoma.fromTable, fromTables_one_panic t h] at hc
  obtain ⟨c', h1, h2⟩ := C01_table_substitution t hne
  rw [h1] at hc; cases hc
  simp only [h2, Outcome.ok.injEq]
  constructor
  · intro h ch d hd
    have := h [ch] _ rfl
    simpa [substitute, hd] using this
  · rintro h text out rfl
    simp only [substitute, List.map_map]
    refine List.map_congr_left fun ch _ => ?_
    simp only [Function.comp_def]
    cases h3 : itemSubst t.items ch with
    | none => simp [h3]
    | some d => simpa using h ch d h3

/-- Tables whose order matters, tables whose order does not, and a merged table. -/
example : substitute (itemSubst [⟨c! "b", c! "c"⟩]) (substitute (itemSubst [⟨c! "a", c! "b"⟩]) (c! "ab")) = c! "cc" ∧
    substitute (itemSubst [⟨c! "a", c! "b"⟩]) (substitute (itemSubst [⟨c! "b", c! "c"⟩]) (c! "ab")) = c! "bc" ∧
    substitute (itemSubst [⟨c! "x", c! "y"⟩]) (substitute (itemSubst [⟨c! "a", c! "b"⟩]) (c! "ax")) = c! "by" ∧
    mergedItems [⟨c! "a", c! "b"⟩] [⟨c! "b", c! "c"⟩] = [⟨c! "b", c! "c"⟩, ⟨c! "a", c! "c"⟩] := by decide +kernel

end Chanoma
