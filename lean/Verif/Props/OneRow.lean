import Verif.Props.Config
import Verif.Props.Chain
import Verif.Props.Equality
import Verif.Spec.Files
/-! # C103: what one row of a table file contributes -/

namespace Chanoma

/-- The row has a cell, other than the last one, that starts with the character. -/
def Names (row : List Str) (ch : Char) : Prop := ∃ cell ∈ row.dropLast, cell.head? = some ch

instance (row : List Str) (ch : Char) : Decidable (Names row ch) := by unfold Names; infer_instance

/-- The normaliser of a CSV file with these rows (after the first one) at this place is `c`. -/
def TableFile (σ : Oracle) (w : World) (path : OsStr) (rows : List (List Str)) (c : Chanoma) : Prop :=
  HasExt path (p! "csv") ∧ (∃ b, w.entry path = some (.file b) ∧ CsvRows b rows) ∧
    Chanoma.fromConfigFile σ w path = .ok c

theorem tableFile_rows {σ : Oracle} {w : World} {path : OsStr} {rows : List (List Str)} {c : Chanoma}
    (h : TableFile σ w path rows c) : CellsNonEmpty (rows.flatMap rowItems) ∧
      ∀ σs debug text, c.normalize σs debug text = .ok (substitute (itemSubst (rows.flatMap rowItems)) text) := by
  obtain ⟨h1, ⟨b, h2, h3⟩, h4⟩ := h
  have hne : CellsNonEmpty (rows.flatMap rowItems) := by
    rw [rows_nonempty_iff]
    intro r hr hl hm
    have := (C33_csv_panics_iff σ w path h1 b rows h3 h2).1.1 ⟨r, hr, hl, hm⟩
    rw [h4] at this
    cases this
  obtain ⟨c', h5, -, h6⟩ := C35_csv_pipeline σ w path h1 b rows h3 h2 hne
  rw [h4] at h5
  cases h5
  exact ⟨hne, h6⟩

theorem nonempty_append {l r : List Item} : CellsNonEmpty (l ++ r) ↔ CellsNonEmpty l ∧ CellsNonEmpty r := by
  simp only [CellsNonEmpty, List.mem_append]
  exact ⟨fun h => ⟨fun i hi => h i (.inl hi), fun i hi => h i (.inr hi)⟩, fun h i hi => hi.elim (h.1 i) (h.2 i)⟩

theorem rowItems_snoc (cells : List Str) (to : Str) : rowItems (cells ++ [to]) = cells.map fun f => ⟨f, to⟩ := by
  simp [rowItems]

theorem names_snoc (cells : List Str) (to : Str) (ch : Char) :
    Names (cells ++ [to]) ch ↔ ∃ cell ∈ cells, cell.head? = some ch := by
  simp [Names]

theorem rows_none {B : List (List Str)} (hne : CellsNonEmpty (B.flatMap rowItems)) (ch : Char) :
    itemSubst (B.flatMap rowItems) ch = none ↔ ¬ ∃ r ∈ B, Names r ch := by
  rw [itemSubst_none_iff hne]
  have key : ∀ r : List Str, (∃ i ∈ rowItems r, i.from.head? = some ch) ↔ Names r ch := by
    intro r
    rcases List.eq_nil_or_concat r with rfl | ⟨l, t, rfl⟩
    · simp [rowItems, Names]
    · rw [List.concat_eq_append, rowItems_snoc, names_snoc]
      constructor
      · rintro ⟨i, hi, hc⟩
        obtain ⟨a, ha, rfl⟩ := List.mem_map.1 hi
        exact ⟨a, ha, hc⟩
      · rintro ⟨a, ha, hc⟩
        exact ⟨⟨a, t⟩, List.mem_map.2 ⟨a, ha, rfl⟩, hc⟩
  constructor
  · rintro h ⟨r, hr, hn⟩
    obtain ⟨i, hi, hc⟩ := (key r).2 hn
    exact h i (List.mem_flatMap.2 ⟨r, hr, hi⟩) hc
  · intro h i hi hc
    obtain ⟨r, hr, hi⟩ := List.mem_flatMap.1 hi
    exact h ⟨r, hr, (key r).1 ⟨i, hi, hc⟩⟩

theorem row_subst (cells : List Str) (d : Char) (ds : Str) (ch : Char) :
    itemSubst (rowItems (cells ++ [d :: ds])) ch = if Names (cells ++ [d :: ds]) ch then some d else none := by
  rw [rowItems_snoc]
  split
  · rename_i h
    obtain ⟨cell, hm, hc⟩ := (names_snoc ..).1 h
    obtain ⟨j, hj, -, e⟩ := itemSubst_some (items := cells.map fun f => (⟨f, d :: ds⟩ : Item)) (i := ⟨cell, d :: ds⟩)
      (List.mem_map.2 ⟨cell, hm, rfl⟩) hc
    obtain ⟨f, -, rfl⟩ := List.mem_map.1 hj
    exact e
  · rename_i h
    rw [names_snoc] at h
    refine itemSubst_none fun i hi hc => ?_
    obtain ⟨f, hf, rfl⟩ := List.mem_map.1 hi
    exact h ⟨f, hf, hc⟩

/-- C103: one more row, anywhere in a table file, changes what becomes of the characters it names and no later row
names, and of no others: they become the first character of its last cell. -/
theorem C103_one_more_row (σ σ' : Oracle) (w w' : World) (path path' : OsStr) (before after : List (List Str))
    (cells : List Str) (d : Char) (ds : Str) (c c' : Chanoma) (hc : TableFile σ w path (before ++ after) c)
    (hc' : TableFile σ' w' path' (before ++ (cells ++ [d :: ds]) :: after) c') :
    ∃ f : Char → Char, (∀ σs debug text, c.normalize σs debug text = .ok (text.map f)) ∧
      ∀ σs debug text, c'.normalize σs debug text = .ok (text.map fun ch =>
        if (∃ cell ∈ cells, cell.head? = some ch) ∧ ¬ ∃ r ∈ after, Names r ch then d else f ch) := by
  obtain ⟨h1, h2⟩ := tableFile_rows hc
  obtain ⟨h3, h4⟩ := tableFile_rows hc'
  refine ⟨fun ch => (itemSubst ((before ++ after).flatMap rowItems) ch).getD ch, h2, fun σs debug text => ?_⟩
  rw [h4]
  unfold substitute
  congr 1
  refine List.map_congr_left fun ch _ => ?_
  rw [List.flatMap_append, List.flatMap_cons] at h3 ⊢
  rw [List.flatMap_append] at h1 ⊢
  rw [nonempty_append] at h1 h3
  obtain ⟨h5, h6⟩ := nonempty_append.1 h3.2
  show _ = if _ then d else (itemSubst (before.flatMap rowItems ++ after.flatMap rowItems) ch).getD ch
  rw [itemSubst_append _ _ h3.2, itemSubst_append _ _ h6, itemSubst_append _ _ h1.2, row_subst]
  by_cases hl : ∃ r ∈ after, Names r ch
  · have hneg : ¬ ((∃ cell ∈ cells, cell.head? = some ch) ∧ ¬ ∃ r ∈ after, Names r ch) := fun h => h.2 hl
    rw [if_neg hneg]
    cases hs : itemSubst (after.flatMap rowItems) ch with
    | none => exact ((rows_none h6 ch).1 hs hl).elim
    | some e => rfl
  · rw [(rows_none h6 ch).2 hl]
    by_cases hn : ∃ cell ∈ cells, cell.head? = some ch
    · rw [if_pos ((names_snoc ..).2 hn), if_pos ⟨hn, hl⟩]; rfl
    · rw [if_neg (fun h => hn ((names_snoc ..).1 h)), if_neg (fun h => hn h.1)]; rfl

/-- C103: the additional row makes no difference to a text exactly if for each character of the text that it names
a later row counts, or the other rows have made the same of it. -/
theorem C103_no_difference (σ σ' : Oracle) (w w' : World) (path path' : OsStr) (before after : List (List Str))
    (cells : List Str) (d : Char) (ds : Str) (c c' : Chanoma) (hc : TableFile σ w path (before ++ after) c)
    (hc' : TableFile σ' w' path' (before ++ (cells ++ [d :: ds]) :: after) c') (σs τs : Nat → Oracle)
    (debug debug' : Bool) (text : Str) :
    c.normalize σs debug text = c'.normalize τs debug' text ↔
      ∀ ch ∈ text, (∃ cell ∈ cells, cell.head? = some ch) →
        (∃ r ∈ after, Names r ch) ∨ c.normalize σs debug [ch] = .ok [d] := by
  obtain ⟨f, h1, h2⟩ := C103_one_more_row σ σ' w w' path path' before after cells d ds c c' hc hc'
  rw [h1, h2, Outcome.ok.injEq, List.map_inj_left]
  simp only [h1, List.map_cons, List.map_nil, Outcome.ok.injEq, List.cons.injEq, and_true]
  refine forall_congr' fun ch => forall_congr' fun _ => ?_
  by_cases hn : ∃ cell ∈ cells, cell.head? = some ch
  · by_cases hl : ∃ r ∈ after, Names r ch
    · rw [if_neg (fun h => h.2 hl)]
      exact ⟨fun _ _ => .inl hl, fun _ => rfl⟩
    · rw [if_pos ⟨hn, hl⟩]
      exact ⟨fun h _ => .inr h, fun h => (h hn).resolve_left hl⟩
  · rw [if_neg (fun h => hn h.1)]
    exact ⟨fun _ h => absurd h hn, fun _ => rfl⟩

/-- C103: two neighbouring rows may be exchanged exactly if they make the same of each character both name and no
later row names. -/
theorem C103_exchange (σ σ' : Oracle) (w w' : World) (path path' : OsStr) (before after : List (List Str))
    (cells cells' : List Str) (d d' : Char) (ds ds' : Str) (c c' : Chanoma)
    (hc : TableFile σ w path (before ++ (cells ++ [d :: ds]) :: (cells' ++ [d' :: ds']) :: after) c)
    (hc' : TableFile σ' w' path' (before ++ (cells' ++ [d' :: ds']) :: (cells ++ [d :: ds]) :: after) c')
    (σs τs : Nat → Oracle) (debug debug' : Bool) :
    (∀ text, c.normalize σs debug text = c'.normalize τs debug' text) ↔
      ∀ ch, Names (cells ++ [d :: ds]) ch → Names (cells' ++ [d' :: ds']) ch →
        (∃ r ∈ after, Names r ch) ∨ d = d' := by
  obtain ⟨h1, h2⟩ := tableFile_rows hc
  obtain ⟨h3, h4⟩ := tableFile_rows hc'
  have e : (∀ text, c.normalize σs debug text = c'.normalize τs debug' text) ↔ ∀ ch : Char,
      (itemSubst ((before ++ (cells ++ [d :: ds]) :: (cells' ++ [d' :: ds']) :: after).flatMap rowItems) ch).getD ch =
      (itemSubst ((before ++ (cells' ++ [d' :: ds']) :: (cells ++ [d :: ds]) :: after).flatMap rowItems) ch).getD ch := by
    simp only [h2, h4, Outcome.ok.injEq, substitute, List.map_inj_left]
    exact ⟨fun h ch => h [ch] ch (by simp), fun h _ ch _ => h ch⟩
  rw [e]
  refine forall_congr' fun ch => ?_
  simp only [List.flatMap_append, List.flatMap_cons] at h1 h3 ⊢
  have g1 := nonempty_append.1 (nonempty_append.1 h1).2
  have g2 := nonempty_append.1 g1.2
  have g3 := nonempty_append.1 (nonempty_append.1 h3).2
  have g4 := nonempty_append.1 g3.2
  rw [itemSubst_append _ _ (nonempty_append.1 h1).2, itemSubst_append _ _ g1.2, itemSubst_append _ _ g2.2,
    itemSubst_append _ _ (nonempty_append.1 h3).2, itemSubst_append _ _ g3.2, itemSubst_append _ _ g2.2,
    row_subst, row_subst]
  by_cases hl : ∃ r ∈ after, Names r ch
  · cases hs : itemSubst (after.flatMap rowItems) ch with
    | none => exact ((rows_none g2.2 ch).1 hs hl).elim
    | some e => exact ⟨fun _ _ _ => .inl hl, fun _ => rfl⟩
  · rw [(rows_none g2.2 ch).2 hl]
    by_cases hn : Names (cells ++ [d :: ds]) ch <;> by_cases hn' : Names (cells' ++ [d' :: ds']) ch <;>
      simp [hn, hn', hl, eq_comm]

/-- A file to which the theorems apply; the row `b,x` in front of `b,y` makes no difference. -/
example : ∃ c, TableFile .insertion (.ofFiles [(p! "/t.csv", .text (c! "from,to\na,x\nb,bee,y\n"))]) (p! "/t.csv")
    [[c! "a", c! "x"], [c! "b", c! "bee", c! "y"]] c := by
  have hx : HasExt (p! "/t.csv") (p! "csv") :=
    ⟨p! "t", ⟨p! "/", [], rfl, by decide, .nil, by decide, by decide, by decide, by decide⟩, by decide, by decide⟩
  have hr : CsvRows (strBytes (c! "from,to\na,x\nb,bee,y\n")) [[c! "a", c! "x"], [c! "b", c! "bee", c! "y"]] := by
    have h := (C28_rows_of_text _ _ (textGo_csvText (c! "from,to\na,x\nb,bee,y\n"))).1 (by decide)
    rwa [show (textGo .startRecord [] [] (c! "from,to\na,x\nb,bee,y\n")).tail =
      [[c! "a", c! "x"], [c! "b", c! "bee", c! "y"]] by decide +kernel] at h
  obtain ⟨c, h, -⟩ := C35_csv_pipeline .insertion
    (.ofFiles [(p! "/t.csv", .text (c! "from,to\na,x\nb,bee,y\n"))]) (p! "/t.csv") hx _ _ hr rfl (by decide +kernel)
  exact ⟨c, hx, ⟨_, rfl, hr⟩, h⟩

end Chanoma
