import Verif.Proofs.Preset
import Verif.Proofs.ItemMap
/-! # C03, C04, C05, C06, C31, C49: tables and correspondences -/

namespace Chanoma

/-! ## C03 -/

/-- C03: `items()` after any sequence of `add_corr`, `remove_corr`, `preset` calls contains
exactly the items of the set obtained by the same sequence of unions and differences. -/
theorem C03_table_is_a_set (b : TableBuilder) (ops : List TableOp) (x : Item) :
    x ∈ (ops.foldl TableOp.run b).build.items ↔
      ops.foldl TableOp.onSet (fun y => y ∈ b.build.items) x := by
  induction ops generalizing b with
  | nil => rfl
  | cons op ops ih =>
    rw [List.foldl_cons, List.foldl_cons, ih]
    have : (fun y => y ∈ (op.run b).build.items) = op.onSet (fun y => y ∈ b.build.items) := by
      funext y; exact propext (mem_run b op y)
    rw [this]

/-- C03 for `Table::add` and `Table::remove`. -/
theorem C03_table_add_remove (σ : Oracle) (t : Table) (c : List Item) (x : Item) :
    (x ∈ (t.add σ c).items ↔ x ∈ t.items ∨ x ∈ c) ∧
    (x ∈ (t.remove c).items ↔ x ∈ t.items ∧ x ∉ c) ∧
    (t.add σ c).origin = t.origin ∧ (t.remove c).origin = t.origin :=
  ⟨mem_corrAdd, mem_corrSub, rfl, rfl⟩

/-- C03: where a history starts: `new` with no items, `builder()` of a table with the items of the
table; so the table that is built is described by the operations alone. -/
theorem C03_starting_points (t : Table) (ops : List TableOp) (x : Item) :
    (x ∈ (ops.foldl TableOp.run TableBuilder.new).build.items ↔
      ops.foldl TableOp.onSet (fun _ => False) x) ∧
    (x ∈ (ops.foldl TableOp.run (TableBuilder.fromTable t)).build.items ↔
      ops.foldl TableOp.onSet (fun y => y ∈ t.items) x) ∧
    (ops.foldl TableOp.run TableBuilder.new).build.origin = .new ∧
    (ops.foldl TableOp.run (TableBuilder.fromTable t)).build.origin = t.origin ∧
    (TableBuilder.fromTable t).build = t := by
  have hor : ∀ b : TableBuilder, (ops.foldl TableOp.run b).build.origin = b.build.origin := by
    induction ops with
    | nil => intro b; rfl
    | cons op ops ih =>
      intro b
      rw [List.foldl_cons, ih]
      cases op <;> rfl
  refine ⟨?_, C03_table_is_a_set _ ops x, hor _, hor _, rfl⟩
  rw [C03_table_is_a_set]
  have : (fun y => y ∈ TableBuilder.new.build.items) = fun _ => False := by
    funext y
    simp [TableBuilder.new, TableBuilder.build, Table.new, Table.items]
  rw [this]

/-- A history that adds `a → A`, `b → B`, the preset, and removes `a → A` again. -/
example : ⟨c! "b", c! "B"⟩ ∈
    ([TableOp.add .insertion [⟨c! "a", c! "A"⟩, ⟨c! "b", c! "B"⟩], .preset .reversed,
      .remove [⟨c! "a", c! "A"⟩]].foldl TableOp.run TableBuilder.new).build.items := by
  rw [C03_table_is_a_set]
  simp [TableOp.onSet]

example : ⟨c! "a", c! "A"⟩ ∉
    ([TableOp.add .insertion [⟨c! "a", c! "A"⟩, ⟨c! "b", c! "B"⟩], .preset .reversed,
      .remove [⟨c! "a", c! "A"⟩]].foldl TableOp.run TableBuilder.new).build.items := by
  rw [C03_table_is_a_set]
  simp [TableOp.onSet]

/-! ## C04 -/

/-- C04: once something was added, the listing is strictly increasing (hence without
duplicates), whatever calls follow. -/
theorem C04_listing_canonical (b : TableBuilder) (ops : List TableOp)
    (h : ∃ op ∈ ops, op.IsAdd) :
    (ops.foldl TableOp.run b).build.items.Pairwise ItemLt :=
  runs_ssorted ops b (.inl h)

/-- C04: two builders in that state have the same item set exactly if they have the same listing, and
exactly if they compare equal. -/
theorem C04_same_set_same_listing (b b' : TableBuilder) (ops ops' : List TableOp)
    (h : ∃ op ∈ ops, op.IsAdd) (h' : ∃ op ∈ ops', op.IsAdd) :
    ((∀ x, x ∈ (ops.foldl TableOp.run b).build.items ↔
        x ∈ (ops'.foldl TableOp.run b').build.items) ↔
      (ops.foldl TableOp.run b).build.items = (ops'.foldl TableOp.run b').build.items) ∧
    ((∀ x, x ∈ (ops.foldl TableOp.run b).build.items ↔
        x ∈ (ops'.foldl TableOp.run b').build.items) ↔
      corrEq (ops.foldl TableOp.run b).build.corr (ops'.foldl TableOp.run b').build.corr = true) := by
  have hset := ssorted_ext (runs_ssorted ops b (.inl h)) (runs_ssorted ops' b' (.inl h'))
  refine ⟨⟨hset, fun he x => by rw [he]⟩, fun hx => ?_, fun he x => ?_⟩
  · show (_ == _) = true
    rw [beq_iff_eq]
    exact hset hx
  · have : (ops.foldl TableOp.run b).build.items = (ops'.foldl TableOp.run b').build.items :=
      beq_iff_eq.mp he
    rw [this]

/-- C04: in general correspondences compare equal exactly if they list the same items in the same order
with the same repetitions. -/
theorem C04_equality (a b : List Item) :
    corrEq a b = true ↔ a.length = b.length ∧ ∀ i : Nat, a[i]? = b[i]? := by
  show (a == b) = true ↔ _
  rw [beq_iff_eq]
  constructor
  · rintro rfl; exact ⟨rfl, fun _ => rfl⟩
  · rintro ⟨-, h⟩; exact List.ext_getElem? h

/-- Different histories with the same set: hypotheses are met, and the listing is the sorted
one although the items were inserted in the other order. -/
example : ([TableOp.add .reversed [⟨c! "b", c! "B"⟩, ⟨c! "a", c! "A"⟩, ⟨c! "b", c! "B"⟩]].foldl
      TableOp.run TableBuilder.new).build.items = [⟨c! "a", c! "A"⟩, ⟨c! "b", c! "B"⟩] ∧
    ([TableOp.add .insertion [⟨c! "a", c! "A"⟩, ⟨c! "c", c! "C"⟩],
      .remove [⟨c! "c", c! "C"⟩], .add .insertion [⟨c! "b", c! "B"⟩]].foldl
      TableOp.run TableBuilder.new).build.items = [⟨c! "a", c! "A"⟩, ⟨c! "b", c! "B"⟩] := by
  decide +kernel

/-- Without any addition the listing need not be canonical: a table made by `from_corr` lists
its items as given, duplicates included (so the hypothesis of C04 is needed). -/
example : ¬ ((TableBuilder.fromTable (Table.fromCorr [⟨c! "b", c! "B"⟩, ⟨c! "b", c! "B"⟩] .new)).build.items).Pairwise
    ItemLt := by
  simp [TableBuilder.fromTable, Table.fromCorr, TableBuilder.build, Table.items, ItemLt]

/-! ## C05 -/

/-- C05: `a + &b` lists exactly the union, strictly increasing. -/
theorem C05_add_is_union (σ : Oracle) (a b : List Item) :
    (∀ x, x ∈ corrAdd σ a b ↔ x ∈ a ∨ x ∈ b) ∧ (corrAdd σ a b).Pairwise ItemLt :=
  ⟨fun _ => mem_corrAdd, corrAdd_ssorted σ a b⟩

/-- C05: addition is commutative and independent of the hash order. -/
theorem C05_add_comm (σ τ : Oracle) (a b : List Item) : corrAdd σ a b = corrAdd τ b a :=
  ssorted_ext (corrAdd_ssorted _ _ _) (corrAdd_ssorted _ _ _)
    fun x => by rw [mem_corrAdd, mem_corrAdd, or_comm]

/-- C05: addition is independent of the hash order. -/
theorem C05_add_hash_order (σ τ : Oracle) (a b : List Item) : corrAdd σ a b = corrAdd τ a b :=
  ssorted_ext (corrAdd_ssorted _ _ _) (corrAdd_ssorted _ _ _)
    fun x => by rw [mem_corrAdd, mem_corrAdd]

/-- C05: addition is associative. -/
theorem C05_add_assoc (σ₁ σ₂ τ₁ τ₂ : Oracle) (a b c : List Item) :
    corrAdd σ₁ (corrAdd σ₂ a b) c = corrAdd τ₁ a (corrAdd τ₂ b c) :=
  ssorted_ext (corrAdd_ssorted _ _ _) (corrAdd_ssorted _ _ _)
    fun x => by simp only [mem_corrAdd, or_assoc]

/-- C05: addition is idempotent: adding `b` twice is adding it once, and adding a canonical
listing to itself changes nothing. -/
theorem C05_add_idem (σ τ : Oracle) (a b : List Item) :
    corrAdd σ (corrAdd τ a b) b = corrAdd τ a b ∧
    (a.Pairwise ItemLt → corrAdd σ a a = a) :=
  ⟨ssorted_ext (corrAdd_ssorted _ _ _) (corrAdd_ssorted _ _ _)
    fun x => by simp only [mem_corrAdd, or_assoc, or_self],
   fun h => ssorted_ext (corrAdd_ssorted _ _ _) h fun x => by simp only [mem_corrAdd, or_self]⟩

/-- C05: `a += &b`, which is written separately, leaves in `a` the union, strictly increasing, whatever the hash
order; so `a += &b` and `a + &b` give equal correspondences, and a `+=` of each of several correspondences in any
order gives the same as one `+=` of all their items. -/
theorem C05_add_assign (σ τ : Oracle) (a b : List Item) :
    (∀ x, x ∈ corrAddAssign σ a b ↔ x ∈ a ∨ x ∈ b) ∧ (corrAddAssign σ a b).Pairwise ItemLt ∧
    corrEq (corrAddAssign σ a b) (corrAdd τ a b) = true ∧
    ∀ (c : List Item) (cs : List (List Item)), (∀ x, x ∈ b ↔ ∃ d ∈ c :: cs, x ∈ d) →
      (c :: cs).foldl (corrAddAssign σ) a = corrAddAssign τ a b := by
  have mem : ∀ {σ : Oracle} {a b : List Item} {x : Item}, x ∈ corrAddAssign σ a b ↔ x ∈ a ∨ x ∈ b :=
    mem_corrAdd
  have sorted : ∀ (σ : Oracle) (a b : List Item), SSorted (corrAddAssign σ a b) := corrAdd_ssorted
  refine ⟨fun x => mem, sorted _ _ _, ?_, fun c cs h => ?_⟩
  · rw [corrEq, beq_iff_eq]
    exact ssorted_ext (sorted _ _ _) (corrAdd_ssorted _ _ _) fun x => by rw [mem, mem_corrAdd]
  · have : ∀ (cs : List (List Item)) (a : List Item),
        (∀ x, x ∈ cs.foldl (corrAddAssign σ) a ↔ x ∈ a ∨ ∃ d ∈ cs, x ∈ d) ∧
        (SSorted a → SSorted (cs.foldl (corrAddAssign σ) a)) := by
      intro cs
      induction cs with
      | nil => simp
      | cons d cs ih =>
        intro a
        refine ⟨fun x => ?_, fun _ => (ih _).2 (sorted _ _ _)⟩
        rw [List.foldl_cons, (ih _).1, mem]
        simp [or_assoc]
    refine ssorted_ext ((this cs _).2 (sorted _ _ _)) (sorted _ _ _) fun x => ?_
    rw [mem, h, (this (c :: cs) _).1]

example : ∀ x, x ∈ [(⟨c! "a", c! "A"⟩ : Item), ⟨c! "b", c! "B"⟩] ↔
    ∃ d ∈ [[(⟨c! "b", c! "B"⟩ : Item)], [⟨c! "a", c! "A"⟩]], x ∈ d := by
  intro x; simp [or_comm]

/-- A canonical listing with two items. -/
example : [(⟨c! "a", c! "A"⟩ : Item), ⟨c! "b", c! "B"⟩].Pairwise ItemLt := by
  have : [(⟨c! "a", c! "A"⟩ : Item), ⟨c! "b", c! "B"⟩] =
      corrAdd .reversed [⟨c! "b", c! "B"⟩] [⟨c! "a", c! "A"⟩] := by decide +kernel
  rw [this]; exact corrAdd_ssorted _ _ _

/-! ## C06 -/

/-- C06: `a - &b` lists, in increasing order and with their multiplicity in `a`, exactly the
items of `a` that are not in `b`. -/
theorem C06_sub_is_difference (a b : List Item) :
    (corrSub a b).Pairwise ItemLe ∧
    (∀ x, (corrSub a b).count x = if x ∈ b then 0 else a.count x) := by
  refine ⟨by rw [corrSub_eq]; exact sortItems_sorted _, fun x => ?_⟩
  rw [corrSub_eq, (sortItems_perm _).count_eq]
  split
  · rename_i h
    apply List.count_eq_zero_of_not_mem
    simp [h]
  · rename_i h
    rw [List.count_filter]
    simp [h]

/-- C06: adding `b` and subtracting it again leaves `a` without the items of `b`. -/
theorem C06_add_sub (σ : Oracle) (a b : List Item) :
    (∀ x, x ∈ corrSub (corrAdd σ a b) b ↔ x ∈ a ∧ x ∉ b) ∧
    (corrSub (corrAdd σ a b) b).Pairwise ItemLt := by
  refine ⟨fun x => ?_, corrSub_ssorted _ (corrAdd_ssorted σ a b).nodup⟩
  rw [mem_corrSub, mem_corrAdd]
  constructor
  · rintro ⟨h | h, h2⟩
    · exact ⟨h, h2⟩
    · exact absurd h h2
  · rintro ⟨h, h2⟩; exact ⟨.inl h, h2⟩

/-- C06: `a -= &b`, which is written separately, leaves in `a` the same: the items not in `b`, in increasing order
and with their multiplicity. -/
theorem C06_sub_assign (a b : List Item) :
    (corrSubAssign a b).Pairwise ItemLe ∧
    (∀ x, (corrSubAssign a b).count x = if x ∈ b then 0 else a.count x) ∧
    corrEq (corrSubAssign a b) (corrSub a b) = true :=
  ⟨(C06_sub_is_difference a b).1, (C06_sub_is_difference a b).2, beq_iff_eq.mpr rfl⟩

/-- C06: only the set of items of `b` matters. -/
theorem C06_sub_insensitive (a b b' : List Item) (h : ∀ x, x ∈ b ↔ x ∈ b') :
    corrSub a b = corrSub a b' := by
  rw [corrSub_eq, corrSub_eq]
  simp only [h]

example : ∀ x, x ∈ [(⟨c! "a", c! "A"⟩ : Item), ⟨c! "b", c! "B"⟩] ↔
    x ∈ [(⟨c! "b", c! "B"⟩ : Item), ⟨c! "a", c! "A"⟩, ⟨c! "b", c! "B"⟩] := by
  intro x; simp only [List.mem_cons, List.not_mem_nil, or_false]
  constructor
  · rintro (h | h) <;> simp [h]
  · rintro (h | h | h) <;> simp [h]

/-! ## C31 -/

/-- C31: the keys of `item_map` are exactly the `to` values, strictly increasing, and the
vector of a key lists the `from` values of the items with that `to`, in listing order. -/
theorem C31_item_map (items : List Item) :
    ((itemMap items).map Prod.fst).Pairwise (fun a b => LexLe a b ∧ a ≠ b) ∧
    (∀ k, k ∈ (itemMap items).map Prod.fst ↔ ∃ i ∈ items, i.to = k) ∧
    (∀ e ∈ itemMap items, e.2 = (items.filter fun i => i.to = e.1).map fun i => i.from) := by
  refine ⟨List.pairwise_map.mpr (itemMap_sorted items), fun k => ?_, fun e he => ?_⟩
  · simp only [List.mem_map]
    constructor
    · rintro ⟨⟨k', vs⟩, h, rfl⟩
      obtain ⟨h1, h2⟩ := mem_itemMap.mp h
      rw [h2] at h1
      simp only [fromsOf, ne_eq, List.map_eq_nil_iff, List.filter_eq_nil_iff] at h1
      refine Classical.byContradiction fun hc => h1 fun a ha hk => hc ⟨a, ha, by simpa using hk⟩
    · rintro ⟨i, hi, rfl⟩
      refine ⟨(i.to, fromsOf items i.to), mem_itemMap.mpr ⟨?_, rfl⟩, rfl⟩
      simp only [fromsOf, ne_eq, List.map_eq_nil_iff, List.filter_eq_nil_iff]
      exact fun h => h i hi (by simp)
  · exact (mem_itemMap.mp he).2

example : itemMap [⟨c! "c", c! "C"⟩, ⟨c! "a", c! "A"⟩, ⟨c! "sea", c! "C"⟩] =
    [(c! "A", [c! "a"]), (c! "C", [c! "c", c! "sea"])] := by decide +kernel

/-! ## C49 -/

/-- C49: Rust's `str` order (UTF-8 bytes) is the lexicographic order of code points. -/
theorem C49_str_order (a b : Str) : strLe a b = true ↔ LexLe a b := strLe_iff_lexLe a b

/-- C49: the order on items is the lexicographic order of `(from, to)` by code points, and it
is a total order. -/
theorem C49_item_order :
    (∀ a b : Item, a.le b = true ↔ ItemLe a b) ∧
    (∀ a b : Item, a.le b = true ∨ b.le a = true) ∧
    (∀ a b : Item, a.le b = true → b.le a = true → a = b) ∧
    (∀ a b c : Item, a.le b = true → b.le c = true → a.le c = true) := by
  simp only [Item.le_iff]
  exact ⟨fun _ _ => trivial, ItemLe.total, fun _ _ => ItemLe.antisymm, fun _ _ _ => ItemLe.trans⟩

/-- The byte order agrees with code points across encoding lengths (1, 3 and 4 bytes). -/
example : strLe (c! "z") (c! "あ") = true ∧ strLe (c! "あ") (c! "𠮷") = true ∧
    strLe (c! "𠮷") (c! "ｱ") = false := by decide +kernel

end Chanoma
