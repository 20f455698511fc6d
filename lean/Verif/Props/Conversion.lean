import Verif.Proofs.Width
import Verif.Proofs.Pipeline
/-! # C01, C02, C07, C08, C23, C32: table conversion and the preset -/

namespace Chanoma

theorem normalize_single (x : CharacterConverter) (σs : Nat → Oracle) (debug : Bool) (text : Str) :
    (Chanoma.mk [.characterConverter x]).normalize σs debug text =
      .ok (substitute x.itemsMap.get? text) := by
  cases debug with
  | false => simp [Chanoma.normalize, ModifierKind.modify, modify_eq]
  | true =>
    obtain ⟨ps, h, _⟩ := modifyWithPositions_eq x (σs 0) text
    simp [Chanoma.normalize, Chanoma.normalizeWithPositions, ModifierKind.modifyWithPositions, h,
      ModifiedRecords.text, unwrap]

/-! ## C01, C02 -/

/-- C01: the normaliser of a table without empty cells replaces each character by the table's
last applicable item and keeps all others, for every hash order and log level. -/
theorem C01_table_substitution (t : Table) (h : CellsNonEmpty t.items) :
    ∃ c, Chanoma.fromTable t = .ok c ∧
      ∀ σs debug text, c.normalize σs debug text = .ok (substitute (itemSubst t.items) text) := by
  obtain ⟨x, h1, h2⟩ := fromTables_one_ok t h
  refine ⟨⟨[.characterConverter x]⟩, by simp [Chanoma.fromTable, h1], fun σs debug text => ?_⟩
  rw [normalize_single, h2]

/-- C01, per position: the output has as many characters as the input, and its `i`-th character
depends only on the `i`-th character of the input. -/
theorem C01_pointwise (t : Table) (c : Chanoma) (hc : Chanoma.fromTable t = .ok c)
    (σs : Nat → Oracle) (debug : Bool) (text : Str) :
    ∃ out : Str, c.normalize σs debug text = .ok out ∧ out.length = text.length ∧
      ∀ (i : Nat) ch, text[i]? = some ch →
        (∀ it ∈ t.items, it.from.head? = some ch → False) ∧ out[i]? = some ch ∨
        (∃ l it r, t.items = l ++ it :: r ∧ it.from.head? = some ch ∧
          (∀ j ∈ r, j.from.head? ≠ some ch) ∧ out[i]? = it.to.head?) := by
  have hne : CellsNonEmpty t.items := Classical.byContradiction fun h => by
    simp [Chanoma.fromTable, fromTables_one_panic t h] at hc
  obtain ⟨c', h1, h2⟩ := C01_table_substitution t hne
  rw [h1] at hc; cases hc
  refine ⟨_, h2 σs debug text, by simp [substitute], fun i ch hch => ?_⟩
  have hget : (substitute (itemSubst t.items) text)[i]? = some ((itemSubst t.items ch).getD ch) := by
    simp [substitute, hch]
  rw [hget]
  by_cases he : ∃ it ∈ t.items, it.from.head? = some ch
  · right
    cases hf : t.items.reverse.find? fun i => i.from.head? = some ch with
    | none =>
      obtain ⟨it, hit, hh⟩ := he
      rw [List.find?_eq_none] at hf
      exact absurd (by simpa using hh) (hf it (by simpa using hit))
    | some it =>
      have hi : itemSubst t.items ch = it.to.head? := by
        unfold itemSubst; rw [hf]
      rw [List.find?_eq_some_iff_append] at hf
      obtain ⟨hp, as, bs, hrev, has⟩ := hf
      have hrev' : t.items = bs.reverse ++ it :: as.reverse := by
        have := congrArg List.reverse hrev
        simpa using this
      refine ⟨bs.reverse, it, as.reverse, hrev', by simpa using hp, ?_, ?_⟩
      · intro j hj; simpa using has j (by simpa using hj)
      · rw [hi]
        have := (hne it (by rw [hrev']; simp)).2
        cases ht : it.to with
        | nil => exact absurd ht this
        | cons d ds => rfl
  · left
    refine ⟨fun it hit hh => he ⟨it, hit, hh⟩, ?_⟩
    rw [itemSubst_none fun it hit hh => he ⟨it, hit, hh⟩]; rfl

/-- A table with a conflict (`a` has two targets) and a multi-character cell meets the
hypothesis; the last listed item wins. -/
example : CellsNonEmpty (Table.fromCorr [⟨c! "a", c! "x"⟩, ⟨c! "a", c! "y"⟩, ⟨c! "sea", c! "C"⟩] .new).items ∧
    substitute (itemSubst [⟨c! "a", c! "x"⟩, ⟨c! "a", c! "y"⟩, ⟨c! "sea", c! "C"⟩]) (c! "bass")
      = c! "byCC" := by
  constructor
  · decide
  · decide +kernel

/-- C02: registering a table panics exactly if it has an empty cell, and otherwise succeeds. -/
theorem C02_panics_iff_empty_cell (t : Table) (c : Chanoma) :
    ((∃ i ∈ t.items, i.from = [] ∨ i.to = []) ↔ Chanoma.fromTable t = .panic) ∧
    ((∃ i ∈ t.items, i.from = [] ∨ i.to = []) ↔ c.addTable t = .panic) ∧
    ((¬ ∃ i ∈ t.items, i.from = [] ∨ i.to = []) ↔ ∃ r, Chanoma.fromTable t = .ok r) ∧
    ((¬ ∃ i ∈ t.items, i.from = [] ∨ i.to = []) ↔ ∃ r, c.addTable t = .ok r) := by
  have hiff : (∃ i ∈ t.items, i.from = [] ∨ i.to = []) ↔ ¬ CellsNonEmpty t.items := by
    simp only [CellsNonEmpty]
    constructor
    · rintro ⟨i, hi, h | h⟩ hc
      · exact (hc i hi).1 h
      · exact (hc i hi).2 h
    · intro h
      apply Classical.byContradiction
      intro hc
      apply h
      intro i hi
      exact ⟨fun e => hc ⟨i, hi, .inl e⟩, fun e => hc ⟨i, hi, .inr e⟩⟩
  rw [hiff]
  by_cases h : CellsNonEmpty t.items
  · obtain ⟨x, h1, -⟩ := fromTables_one_ok t h
    simp [h, Chanoma.fromTable, Chanoma.addTable, h1]
  · have h1 := fromTables_one_panic t h
    simp [h, Chanoma.fromTable, Chanoma.addTable, h1]

/-- Both cases occur. -/
example : Chanoma.fromTable (Table.fromCorr [⟨c! "a", []⟩] .new) = .panic ∧
    Chanoma.fromTable (Table.fromCorr [⟨c! "a", c! "b"⟩] .new) =
      .ok ⟨[.characterConverter ⟨[('a', 'b')]⟩]⟩ := by decide +kernel

/-- C01, C02: a converter made of several tables is the one made of all their items in order, so that
the last item of the last table counts. -/
theorem C01_several_tables (ts : List Table) (origin : Origin) (σ : Oracle) :
    CharacterConverter.fromTables ts =
      CharacterConverter.fromTables [Table.fromCorr (ts.flatMap (·.items)) origin] ∧
    ((∃ t ∈ ts, ¬ CellsNonEmpty t.items) → CharacterConverter.fromTables ts = .panic) ∧
    ((∀ t ∈ ts, CellsNonEmpty t.items) → ∃ x, CharacterConverter.fromTables ts = .ok x ∧
      ∀ text, (ModifierKind.characterConverter x).modify σ text =
        .ok (substitute (itemSubst (ts.flatMap (·.items))) text)) := by
  have e : CharacterConverter.fromTables ts =
      CharacterConverter.fromTables [Table.fromCorr (ts.flatMap (·.items)) origin] := by
    simp only [CharacterConverter.fromTables, List.foldlM_cons, List.foldlM_nil]
    congr 1
    rw [bind_pure]
    show _ = (ts.flatMap (·.items)).foldlM _ _
    generalize ([] : HMap Char Char) = m
    induction ts generalizing m with
    | nil => rfl
    | cons t ts ih =>
      rw [List.foldlM_cons, List.flatMap_cons, List.foldlM_append]
      congr 1
      funext m
      exact ih m
  have ht : (Table.fromCorr (ts.flatMap (·.items)) origin).items = ts.flatMap (·.items) := rfl
  refine ⟨e, fun h => ?_, fun h => ?_⟩
  · rw [e, fromTables_one_panic]
    obtain ⟨t, h1, h2⟩ := h
    rw [ht]
    exact fun hc => h2 fun i hi => hc i (List.mem_flatMap.2 ⟨t, h1, hi⟩)
  · obtain ⟨x, h1, h2⟩ := fromTables_one_ok (Table.fromCorr (ts.flatMap (·.items)) origin) (by
      rw [ht]
      intro i hi
      obtain ⟨t, h1, h2⟩ := List.mem_flatMap.1 hi
      exact h t h1 i h2)
    refine ⟨x, e.trans h1, fun text => ?_⟩
    rw [ht] at h2
    rw [← h2]
    simp [ModifierKind.modify, modify_eq]

/-- C02: it panics exactly if one of the tables has an empty cell. -/
theorem C02_several_tables (ts : List Table) :
    CharacterConverter.fromTables ts = .panic ↔ ∃ t ∈ ts, ¬ CellsNonEmpty t.items := by
  obtain ⟨-, h1, h2⟩ := C01_several_tables ts .new Oracle.insertion
  refine ⟨fun h => Classical.byContradiction fun hn => ?_, h1⟩
  obtain ⟨x, hx, _⟩ := h2 fun t ht => Classical.byContradiction fun hc => hn ⟨t, ht, hc⟩
  rw [h] at hx
  cases hx

/-- The second of two tables has an empty cell. -/
example : CharacterConverter.fromTables [Table.fromCorr [⟨c! "a", c! "y"⟩] .new,
    Table.fromCorr [⟨c! "b", []⟩] .new] = .panic := by decide +kernel

/-- Two tables with an item for the same character: the later one counts. -/
example : CharacterConverter.fromTables [Table.fromCorr [⟨c! "a", c! "y"⟩, ⟨c! "b", c! "z"⟩] .new,
    Table.fromCorr [⟨c! "a", c! "x"⟩] .new] = .ok ⟨[('a', 'x'), ('b', 'z')]⟩ := by decide +kernel

/-! ## C07, C08 -/

/-- C07: the preset normaliser folds every character by `presetFold`. -/
theorem C07_preset (σ : Oracle) :
    ∃ c, Chanoma.preset σ = .ok c ∧
      ∀ σs debug text, c.normalize σs debug text = .ok (text.map presetFold) := by
  obtain ⟨x, h1, h2⟩ := fromTables_one_ok _ (preset_nonempty σ)
  refine ⟨⟨[.characterConverter x]⟩, by simp [Chanoma.preset, Chanoma.allCharactersSet, h1],
    fun σs debug text => ?_⟩
  rw [normalize_single, h2, preset_substitute]

/-- C07: `presetFold` on the documented ranges, and nowhere else. -/
theorem C07_presetFold (c : Char) :
    (0xFF10 ≤ c.toNat ∧ c.toNat ≤ 0xFF19 ∨ 0xFF21 ≤ c.toNat ∧ c.toNat ≤ 0xFF3A ∨
      0xFF41 ≤ c.toNat ∧ c.toNat ≤ 0xFF5A → (presetFold c).toNat = c.toNat - 0xFEE0) ∧
    (c.toNat < 0xFF01 → c ≠ '”' → c ≠ '’' → c ≠ '〜' → c ≠ '　' → presetFold c = c) := by
  constructor
  · intro h
    have h1 : presetFold c = Char.ofNat (c.toNat - 0xFEE0) := by
      unfold presetFold
      simp only
      rw [if_pos (by omega)]
    rw [h1]
    unfold Char.ofNat
    rw [dif_pos (by left; omega)]
    show (UInt32.ofNatLT _ _).toNat = _
    rw [UInt32.toNat_ofNatLT]
  · intro h h1 h2 h3 h4
    unfold presetFold
    simp only
    rw [if_neg (by omega), if_neg (by omega)]
    simp only [h1, h2, h3, h4, if_false]
    split
    · rename_i e; subst e; exact absurd h (by decide)
    · rfl

/-- C07: the preset's items are exactly the one-character items `c → presetFold c` for the
characters that `presetFold` changes. -/
theorem C07_items (σ : Oracle) (x : Item) :
    x ∈ (TableBuilder.new.preset σ).build.items ↔
      ∃ c, presetFold c ≠ c ∧ x = ⟨[c], [presetFold c]⟩ := by
  rw [mem_presetTable]
  have h1 : ∀ i ∈ presetConsts, ∃ c ∈ i.from.head?, presetFold c ≠ c ∧ i = ⟨[c], [presetFold c]⟩ := by
    decide +kernel
  constructor
  · intro h
    obtain ⟨c, -, h2⟩ := h1 x h
    exact ⟨c, h2⟩
  · rintro ⟨c, hc, rfl⟩
    obtain ⟨i, hi, hic⟩ := preset_covered c hc
    obtain ⟨d, hd, h3, rfl⟩ := h1 i hi
    cases hic
    exact hi

example : (c! "ﾁｬﾉﾏ　ＡＢＣ１２３！？￥〜ー漢").map presetFold = c! "チャノマ ABC123!?¥~ー漢" := by
  decide +kernel

/-- C08: applying `use_preset` any positive number of times gives the same normaliser, which
keeps the number of characters, for every hash order and log level. -/
theorem C08_preset_idempotent (n : Nat) (σ : Oracle) :
    ∃ c, (List.replicate (n + 1) ()).foldlM (fun c _ => Chanoma.usePreset σ c) Chanoma.new = .ok c ∧
      c.modifiers.length = n + 1 ∧
      ∀ σs debug text, c.normalize σs debug text = .ok (text.map presetFold) := by
  obtain ⟨x, h1, h2⟩ := allCharactersSet_ok σ
  have key : ∀ (k : Nat) (c : Chanoma),
      (List.replicate k ()).foldlM (fun c _ => Chanoma.usePreset σ c) c =
        .ok ⟨c.modifiers ++ List.replicate k (.characterConverter x)⟩ := by
    intro k
    induction k with
    | zero => intro c; simp
    | succ k ih =>
      intro c
      simp only [List.replicate_succ, List.foldlM_cons, Chanoma.usePreset, h1, Outcome.ok_bind,
        Outcome.pure_eq]
      have := ih ⟨c.modifiers ++ [.characterConverter x]⟩
      simp only [Chanoma.usePreset, h1, Outcome.ok_bind, Outcome.pure_eq] at this
      rw [this]
      simp
  refine ⟨_, key _ _, by simp [Chanoma.new], fun σs debug text => ?_⟩
  have hdebug : (Chanoma.mk (Chanoma.new.modifiers ++ List.replicate (n + 1) (.characterConverter x))).normalize
      σs debug text = (Chanoma.mk (Chanoma.new.modifiers ++ List.replicate (n + 1) (.characterConverter x))).normalize
      σs false text := by
    cases debug with
    | false => rfl
    | true =>
      obtain ⟨rs, h3, h4, h5⟩ := pipeline_eq ⟨Chanoma.new.modifiers ++ List.replicate (n + 1) (.characterConverter x)⟩
        (by
          intro m hm
          have := (List.mem_replicate.1 (by simpa [Chanoma.new] using hm : m ∈ List.replicate (n + 1) _)).2
          rw [this]; trivial) σs text
      have hrs : rs ≠ [] := by
        intro e
        have := chained_length h3
        simp [e] at this
      rw [h5, ← records_text rs text hrs]
      simp [Chanoma.normalize, h4]
  rw [hdebug]
  simp only [Chanoma.normalize, Bool.not_false, if_true, Chanoma.new, List.nil_append]
  have step : ∀ (k j : Nat) (text : Str),
      ((List.replicate k (ModifierKind.characterConverter x)).zipIdx j).foldlM
        (fun acc m => m.1.modify (σs m.2) acc) (text.map presetFold) =
      .ok (text.map presetFold) := by
    intro k
    induction k with
    | zero => intro j text; rfl
    | succ k ih =>
      intro j text
      simp only [List.replicate_succ, List.zipIdx_cons, List.foldlM_cons, ModifierKind.modify, h2,
        Outcome.ok_bind]
      have : (text.map presetFold).map presetFold = text.map presetFold := by
        simp [List.map_map, Function.comp_def, presetFold_idem]
      rw [this]
      exact ih (j + 1) text
  simp only [List.replicate_succ, List.zipIdx_cons, List.foldlM_cons, ModifierKind.modify, h2,
    Outcome.ok_bind]
  exact step n 1 text

/-- C08: normalising twice with the preset is normalising once, and the length is kept. -/
theorem C08_twice (σ : Oracle) (c : Chanoma) (hc : Chanoma.preset σ = .ok c) (σs τs : Nat → Oracle)
    (d d' : Bool) (text : Str) :
    ∃ out, c.normalize σs d text = .ok out ∧ c.normalize τs d' out = .ok out ∧
      out.length = text.length := by
  obtain ⟨c', h1, h2⟩ := C07_preset σ
  rw [h1] at hc; cases hc
  refine ⟨_, h2 σs d text, ?_, by simp⟩
  rw [h2]
  simp [List.map_map, Function.comp_def, presetFold_idem]

example : ∃ c, Chanoma.preset .insertion = .ok c := (C07_preset _).imp fun _ h => h.1

/-! ## C23 -/

theorem mem_substPositions (f : Char → Option Char) (pre text : Str) (p : Position) :
    p ∈ substPositions f pre text ↔
      ∃ u c d v, text = u ++ c :: v ∧ f c = some d ∧ p = substPosition (pre ++ u) c d := by
  induction text generalizing pre with
  | nil => simp [substPositions]
  | cons a text ih =>
    simp only [substPositions, List.mem_append, ih]
    constructor
    · rintro (h | ⟨u, c, d, v, rfl, hf, rfl⟩)
      · split at h
        · rename_i d hd
          simp only [List.mem_singleton] at h
          exact ⟨[], a, d, text, rfl, hd, by simpa [substPosition] using h⟩
        · simp at h
      · exact ⟨a :: u, c, d, v, rfl, hf, by simp [substPosition]⟩
    · rintro ⟨u, c, d, v, h, hf, rfl⟩
      cases u with
      | nil =>
        simp only [List.nil_append, List.cons.injEq] at h
        obtain ⟨rfl, rfl⟩ := h
        left; simp [hf, substPosition]
      | cons b u =>
        simp only [List.cons_append, List.cons.injEq] at h
        obtain ⟨rfl, rfl⟩ := h
        right
        exact ⟨u, c, d, v, rfl, hf, by simp⟩

theorem substPositions_index (f : Char → Option Char) (pre text : Str) :
    (substPositions f pre text).Pairwise (fun p q => p.index < q.index) := by
  induction text generalizing pre with
  | nil => simp [substPositions]
  | cons a text ih =>
    simp only [substPositions]
    rw [List.pairwise_append]
    refine ⟨?_, ih _, ?_⟩
    · split <;> simp
    · intro p hp q hq
      rw [mem_substPositions] at hq
      obtain ⟨u, c, d, v, -, -, rfl⟩ := hq
      split at hp
      · simp only [List.mem_singleton] at hp
        subst hp
        simp [substPosition]
      · simp at hp

/-- C23: the number written `strLen` here and in the other specifications of positions is the number
of bytes of the text in UTF-8. -/
theorem C23_byte_count (s : Str) : strLen s = (String.ofList s).utf8ByteSize := by
  have h1 : strLen s = (strBytes s).length := by
    simp [strLen, strBytes, List.length_flatMap, String.length_utf8EncodeChar]
  have h2 : strBytes s = (String.ofList s).toByteArray.data.toList := by
    simp [strBytes, String.ofList, List.utf8Encode]
  rw [h1, h2, Array.length_toList]; rfl

/-- C23: the record of a table conversion carries the substituted text, and its positions are
without repetition exactly the substituted occurrences. -/
theorem C23_converter_positions (t : Table) (h : CellsNonEmpty t.items) :
    ∃ c, Chanoma.fromTable t = .ok c ∧ ∀ σs input,
      ∃ r, c.normalizeWithPositions σs input = .ok ⟨[r]⟩ ∧
        r.text = substitute (itemSubst t.items) input ∧
        (∀ p, p ∈ r.positions ↔ ∃ pre c d post, input = pre ++ c :: post ∧
          itemSubst t.items c = some d ∧ p = substPosition pre c d) ∧
        (r.positions.map (·.index)).Nodup := by
  obtain ⟨x, h1, h2⟩ := fromTables_one_ok t h
  refine ⟨⟨[.characterConverter x]⟩, by simp [Chanoma.fromTable, h1], fun σs input => ?_⟩
  obtain ⟨ps, h3, h4⟩ := modifyWithPositions_eq x (σs 0) input
  rw [occPos_substPositions, h2] at h4
  refine ⟨⟨.characterConverter x, substitute x.itemsMap.get? input, ps⟩, ?_, by simp [h2], ?_, ?_⟩
  · simp [Chanoma.normalizeWithPositions, ModifierKind.modifyWithPositions, h3]
  · intro p
    simp only [h4.mem_iff, mem_substPositions, List.nil_append]
  · have := (h4.map (·.index)).nodup_iff
    rw [this]
    refine List.Pairwise.imp ?_ (List.pairwise_map.mpr (substPositions_index (itemSubst t.items) [] input))
    intro a b h; omega

/-- C23: writing each position's `to` at its character index, and nothing else, turns the input
into the output. -/
theorem C23_positions_reproduce (t : Table) (c : Chanoma) (hc : Chanoma.fromTable t = .ok c)
    (σs : Nat → Oracle) (input : Str) :
    ∃ r, c.normalizeWithPositions σs input = .ok ⟨[r]⟩ ∧ r.text.length = input.length ∧
      (∀ p ∈ r.positions, ∃ a b, p.from = [a] ∧ p.to = [b] ∧
        input[p.index]? = some a ∧ r.text[p.index]? = some b) ∧
      (∀ i, (∀ p ∈ r.positions, p.index ≠ i) → r.text[i]? = input[i]?) := by
  have hne : CellsNonEmpty t.items := Classical.byContradiction fun h => by
    simp [Chanoma.fromTable, fromTables_one_panic t h] at hc
  obtain ⟨c', h1, h2⟩ := C23_converter_positions t hne
  rw [h1] at hc; cases hc
  obtain ⟨r, h3, h4, h5, -⟩ := h2 σs input
  refine ⟨r, h3, by simp [h4, substitute], ?_, ?_⟩
  · intro p hp
    obtain ⟨pre, c, d, post, rfl, hf, rfl⟩ := (h5 p).mp hp
    refine ⟨c, d, rfl, rfl, by simp [substPosition], ?_⟩
    rw [h4]; simp [substPosition, substitute, hf]
  · intro i hi
    rw [h4]
    simp only [substitute, List.getElem?_map]
    cases hc : input[i]? with
    | none => rfl
    | some ch =>
      cases hf : itemSubst t.items ch with
      | none => simp [hf]
      | some d =>
        obtain ⟨hlt, hget⟩ := List.getElem?_eq_some_iff.mp hc
        have hsplit : input = input.take i ++ ch :: input.drop (i + 1) := by
          rw [← hget, List.getElem_cons_drop, List.take_append_drop]
        have := hi _ ((h5 _).mpr ⟨input.take i, ch, d, input.drop (i + 1), hsplit, hf, rfl⟩)
        exact absurd (by simp [substPosition]; omega) this

/-- Two occurrences of a three-byte character, reported with character index, byte offset and
byte length. -/
example : (Chanoma.mk [.characterConverter ⟨[('ｱ', 'ア')]⟩]).normalizeWithPositions
      (fun _ => .insertion) (c! "ｱxｱ") =
    .ok ⟨[⟨.characterConverter ⟨[('ｱ', 'ア')]⟩, c! "アxア",
      [⟨c! "ｱ", c! "ア", 0, 3, 0, 1⟩, ⟨c! "ｱ", c! "ア", 2, 3, 4, 1⟩]⟩]⟩ := by
  decide +kernel

/-! ## C32 -/

/-- C32 (partial; the claim "honoured or rejected" is false, see `C32_not_honoured`): what the
code does instead is to read only the first character of each cell: truncating every cell to one
character never changes the resulting normaliser. -/
theorem C32_truncated_partial (t : Table) :
    Chanoma.fromTable t =
      Chanoma.fromTable { t with corr := t.items.map fun i => ⟨i.from.take 1, i.to.take 1⟩ } := by
  have key : ∀ (items : List Item) (m : HMap Char Char),
      items.foldlM (fun (m : HMap Char Char) (item : Item) => (do
        let f ← unwrap item.from.head?
        let t ← unwrap item.to.head?
        return m.insert f t : Outcome _)) m =
      (items.map fun i => (⟨i.from.take 1, i.to.take 1⟩ : Item)).foldlM
        (fun (m : HMap Char Char) (item : Item) => (do
        let f ← unwrap item.from.head?
        let t ← unwrap item.to.head?
        return m.insert f t : Outcome _)) m := by
    intro items m
    rw [List.foldlM_map]
    simp only [List.head?_take, Nat.one_ne_zero, if_false]
  unfold Chanoma.fromTable CharacterConverter.fromTables
  simp only [List.foldlM_cons, List.foldlM_nil]
  rw [key]
  rfl

/-- C32 refuted: `sea → C` is accepted and rewrites every `s`. -/
theorem C32_not_honoured :
    ∃ c, Chanoma.fromTable (Table.fromCorr [⟨c! "sea", c! "C"⟩] .new) = .ok c ∧
      ∀ σs debug, c.normalize σs debug (c! "sea, salt") = .ok (c! "Cea, Calt") := by
  obtain ⟨c, h1, h2⟩ := C01_table_substitution (Table.fromCorr [⟨c! "sea", c! "C"⟩] .new) (by decide)
  refine ⟨c, h1, fun σs debug => ?_⟩
  rw [h2]
  decide +kernel

end Chanoma
