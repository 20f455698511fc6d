import Verif.Spec.History
import Verif.Props.Tables
/-! # C97: which calls on a builder come to the same -/

namespace Chanoma

theorem lastAdds_cons {op : TableOp} {ops : List TableOp} {x : Item} :
    LastAdds (op :: ops) x ↔ LastAdds ops x ∨ (op.Adds x ∧ ∀ o ∈ ops, ¬ o.Removes x) := by
  constructor
  · rintro ⟨pre, o, post, e, h1, h2⟩
    cases pre with
    | nil => cases e; exact .inr ⟨h1, h2⟩
    | cons p pre => cases e; exact .inl ⟨pre, o, post, rfl, h1, h2⟩
  · rintro (⟨pre, o, post, rfl, h1, h2⟩ | ⟨h1, h2⟩)
    · exact ⟨op :: pre, o, post, rfl, h1, h2⟩
    · exact ⟨[], op, ops, rfl, h1, h2⟩

theorem lastRemoves_cons {op : TableOp} {ops : List TableOp} {x : Item} :
    LastRemoves (op :: ops) x ↔ LastRemoves ops x ∨ (op.Removes x ∧ ∀ o ∈ ops, ¬ o.Adds x) := by
  constructor
  · rintro ⟨pre, o, post, e, h1, h2⟩
    cases pre with
    | nil => cases e; exact .inr ⟨h1, h2⟩
    | cons p pre => cases e; exact .inl ⟨pre, o, post, rfl, h1, h2⟩
  · rintro (⟨pre, o, post, rfl, h1, h2⟩ | ⟨h1, h2⟩)
    · exact ⟨op :: pre, o, post, rfl, h1, h2⟩
    · exact ⟨[], op, ops, rfl, h1, h2⟩

theorem adds_removes {op : TableOp} {x : Item} (h1 : op.Adds x) (h2 : op.Removes x) : False := by
  cases op <;> simp_all [TableOp.Adds, TableOp.Removes]

theorem onSet_iff {S : Item → Prop} {op : TableOp} {x : Item} :
    op.onSet S x ↔ op.Adds x ∨ (S x ∧ ¬ op.Removes x) := by
  cases op <;> simp [TableOp.Adds, TableOp.Removes, TableOp.onSet, or_comm]

theorem last_cases (ops : List TableOp) (x : Item) :
    (LastAdds ops x ∧ ¬ LastRemoves ops x) ∨ (LastRemoves ops x ∧ ¬ LastAdds ops x) ∨
      ((∀ o ∈ ops, ¬ o.Adds x) ∧ ∀ o ∈ ops, ¬ o.Removes x) := by
  induction ops with
  | nil => right; right; simp
  | cons op ops ih =>
    have hx := @adds_removes op x
    have h1 : LastAdds ops x → ¬ ∀ o ∈ ops, ¬ o.Adds x := by
      rintro ⟨pre, o, post, rfl, h1, -⟩ h; exact h o (by simp) h1
    have h2 : LastRemoves ops x → ¬ ∀ o ∈ ops, ¬ o.Removes x := by
      rintro ⟨pre, o, post, rfl, h1, -⟩ h; exact h o (by simp) h1
    simp only [lastAdds_cons, lastRemoves_cons, List.forall_mem_cons]
    rcases ih with ih | ih | ih
    · grind
    · grind
    · by_cases ha : op.Adds x <;> by_cases hr : op.Removes x <;> grind

theorem last_iff (ops : List TableOp) (x : Item) : ∀ S : Item → Prop,
    ops.foldl TableOp.onSet S x ↔ LastAdds ops x ∨ (S x ∧ ¬ LastRemoves ops x) := by
  induction ops with
  | nil =>
    intro S
    simp [LastAdds, LastRemoves]
  | cons op ops ih =>
    intro S
    have h1 : LastAdds ops x → ¬ ∀ o ∈ ops, ¬ o.Adds x := by
      rintro ⟨pre, o, post, rfl, h1, -⟩ h; exact h o (by simp) h1
    have h2 : LastRemoves ops x → ¬ ∀ o ∈ ops, ¬ o.Removes x := by
      rintro ⟨pre, o, post, rfl, h1, -⟩ h; exact h o (by simp) h1
    rw [List.foldl_cons, ih, onSet_iff, lastAdds_cons, lastRemoves_cons]
    rcases last_cases ops x with h | h | h <;> grind

/-- C97: what is in a table after any calls: the items the last call about which adds them, and of the items
there at the beginning those the last call about which does not remove them. -/
theorem C97_last_call (b : TableBuilder) (ops : List TableOp) (x : Item) :
    x ∈ (ops.foldl TableOp.run b).build.items ↔
      LastAdds ops x ∨ (x ∈ b.build.items ∧ ¬ LastRemoves ops x) := by
  rw [C03_table_is_a_set, last_iff]

theorem run_origin (ops : List TableOp) : ∀ b, (ops.foldl TableOp.run b).build.origin = b.build.origin := by
  induction ops with
  | nil => intro b; rfl
  | cons op ops ih =>
    intro b
    rw [List.foldl_cons, ih]
    cases op <;> rfl

theorem builder_ext {b b' : TableBuilder} (h1 : b.build.items = b'.build.items)
    (h2 : b.build.origin = b'.build.origin) : b = b' := by
  obtain ⟨⟨c, o⟩⟩ := b
  obtain ⟨⟨c', o'⟩⟩ := b'
  cases h1; cases h2; rfl

/-- C97: two lists of calls with an addition each come to the same, whatever the builder, exactly if the last call
about each item is of the same kind in both. -/
theorem C97_same (ops ops' : List TableOp) (h : ∃ op ∈ ops, op.IsAdd) (h' : ∃ op ∈ ops', op.IsAdd) :
    (∀ b, ops.foldl TableOp.run b = ops'.foldl TableOp.run b) ↔
      ∀ x, (LastAdds ops x ↔ LastAdds ops' x) ∧ (LastRemoves ops x ↔ LastRemoves ops' x) := by
  constructor
  · intro hb x
    have e0 := C97_last_call TableBuilder.new ops x
    have e0' := C97_last_call TableBuilder.new ops' x
    rw [hb] at e0
    have n0 : x ∉ TableBuilder.new.build.items := by
      simp [TableBuilder.new, TableBuilder.build, Table.new, Table.items]
    simp only [n0, false_and, or_false] at e0 e0'
    have e1 := C97_last_call ⟨⟨[x], .new⟩⟩ ops x
    have e1' := C97_last_call ⟨⟨[x], .new⟩⟩ ops' x
    rw [hb] at e1
    have n1 : x ∈ (TableBuilder.mk ⟨[x], .new⟩).build.items := by simp [TableBuilder.build, Table.items]
    simp only [n1, true_and] at e1 e1'
    rcases last_cases ops x with c | c | c <;> rcases last_cases ops' x with c' | c' | c' <;>
      first
      | grind
      | skip
    all_goals
      have q1 : LastRemoves ops x → ¬ ∀ o ∈ ops, ¬ o.Removes x := by
        rintro ⟨pre, o, post, rfl, h1, -⟩ h; exact h o (by simp) h1
      have q2 : LastRemoves ops' x → ¬ ∀ o ∈ ops', ¬ o.Removes x := by
        rintro ⟨pre, o, post, rfl, h1, -⟩ h; exact h o (by simp) h1
      grind
  · intro hx b
    refine builder_ext (ssorted_ext (runs_ssorted ops b (.inl h)) (runs_ssorted ops' b (.inl h')) fun x => ?_)
      ((run_origin ops b).trans (run_origin ops' b).symm)
    rw [C97_last_call, C97_last_call, (hx x).1, (hx x).2]

open Classical in
theorem lastRemoves_list (ops : List TableOp) : ∃ l : List Item, ∀ x, x ∈ l ↔ LastRemoves ops x := by
  refine ⟨(ops.flatMap fun | .remove c => c | _ => []).filter fun x => LastRemoves ops x, fun x => ?_⟩
  simp only [List.mem_filter, decide_eq_true_eq, and_iff_right_iff_imp, List.mem_flatMap]
  rintro ⟨pre, op, post, rfl, h, -⟩
  refine ⟨op, by simp, ?_⟩
  cases op with
  | remove c => exact h
  | _ => exact h.elim

open Classical in
theorem lastAdds_list (ops : List TableOp) : ∃ l : List Item, ∀ x, x ∈ l ↔ LastAdds ops x := by
  refine ⟨(ops.flatMap fun | .add _ c => c | .preset σ => allItems σ | _ => []).filter fun x => LastAdds ops x,
    fun x => ?_⟩
  simp only [List.mem_filter, decide_eq_true_eq, and_iff_right_iff_imp, List.mem_flatMap]
  rintro ⟨pre, op, post, rfl, h, -⟩
  refine ⟨op, by simp, ?_⟩
  cases op with
  | remove c => exact h.elim
  | add σ c => exact h
  | preset σ => exact mem_allItems.2 h

/-- C97: any calls with an addition among them come to one removal and one addition, of correspondences without
common items, which may be made in either order. -/
theorem C97_two_calls (ops : List TableOp) (h : ∃ op ∈ ops, op.IsAdd) :
    ∃ rem add : List Item, (∀ x, x ∈ rem ↔ LastRemoves ops x) ∧ (∀ x, x ∈ add ↔ LastAdds ops x) ∧
      (∀ x ∈ rem, x ∉ add) ∧
      ∀ σ b, ops.foldl TableOp.run b = (b.removeCorr rem).addCorr σ add ∧
        ops.foldl TableOp.run b = (b.addCorr σ add).removeCorr rem := by
  obtain ⟨rem, hr⟩ := lastRemoves_list ops
  obtain ⟨add, ha⟩ := lastAdds_list ops
  refine ⟨rem, add, hr, ha, fun x h1 h2 => ?_, fun σ b => ⟨?_, ?_⟩⟩
  · rw [hr] at h1; rw [ha] at h2
    rcases last_cases ops x with c | c | c
    · exact c.2 h1
    · exact c.2 h2
    · obtain ⟨pre, o, post, rfl, h3, -⟩ := h1
      exact c.2 o (by simp) h3
  · refine builder_ext (ssorted_ext (runs_ssorted ops b (.inl h))
      (runs_ssorted [.remove rem, .add σ add] b (.inl ⟨.add σ add, by simp, trivial⟩)) fun x => ?_)
      (run_origin ops b)
    refine (C97_last_call b ops x).trans (Iff.trans ?_ (C03_table_is_a_set b [.remove rem, .add σ add] x).symm)
    simp only [List.foldl_cons, List.foldl_nil, TableOp.onSet, hr, ha]
    exact or_comm
  · refine builder_ext (ssorted_ext (runs_ssorted ops b (.inl h))
      (runs_ssorted [.add σ add, .remove rem] b (.inl ⟨.add σ add, by simp, trivial⟩)) fun x => ?_)
      (run_origin ops b)
    refine (C97_last_call b ops x).trans (Iff.trans ?_ (C03_table_is_a_set b [.add σ add, .remove rem] x).symm)
    simp only [List.foldl_cons, List.foldl_nil, TableOp.onSet, hr, ha]
    rcases last_cases ops x with c | c | c
    · grind
    · grind
    · have : ¬ LastRemoves ops x := by
        rintro ⟨pre, o, post, rfl, h3, -⟩
        exact c.2 o (by simp) h3
      grind

theorem removes_eq (ops : List TableOp) : ∀ (b : TableBuilder) (c : List Item), (∀ op ∈ ops, ¬ op.IsAdd) → ∀ rem : List Item,
    (∀ x, x ∈ rem ↔ x ∈ c ∨ ∃ op ∈ ops, op.Removes x) → ops.foldl TableOp.run (b.removeCorr c) = b.removeCorr rem := by
  induction ops with
  | nil =>
    intro b c _ rem hr
    refine builder_ext (C06_sub_insensitive _ _ _ fun x => ?_) rfl
    rw [hr]; simp
  | cons op ops ih =>
    intro b c hno rem hr
    cases op with
    | remove d =>
      have e : (TableOp.remove d).run (b.removeCorr c) = b.removeCorr (c ++ d) := by
        refine builder_ext ?_ rfl
        refine sorted_perm_eq (C06_sub_is_difference _ _).1 (C06_sub_is_difference _ _).1 (List.perm_iff_count.2 fun x => ?_)
        show (corrSub (corrSub b.table.corr c) d).count x = (corrSub b.table.corr (c ++ d)).count x
        rw [(C06_sub_is_difference _ _).2, (C06_sub_is_difference _ _).2, (C06_sub_is_difference _ _).2]
        by_cases h1 : x ∈ c <;> by_cases h2 : x ∈ d <;> simp [h1, h2]
      rw [List.foldl_cons, e]
      refine ih b (c ++ d) (fun o ho => hno o (by simp [ho])) rem fun x => ?_
      rw [hr]
      simp [TableOp.Removes, or_assoc]
    | _ => exact (hno _ List.mem_cons_self trivial).elim

/-- C97: removals only, at least one, come to one removal; the items that stay keep their repetitions. -/
theorem C97_removals (ops : List TableOp) (hne : ops ≠ []) (h : ∀ op ∈ ops, ¬ op.IsAdd) (rem : List Item)
    (hr : ∀ x, x ∈ rem ↔ ∃ op ∈ ops, op.Removes x) (b : TableBuilder) :
    ops.foldl TableOp.run b = b.removeCorr rem := by
  cases ops with
  | nil => exact absurd rfl hne
  | cons op ops =>
    cases op with
    | remove c => exact removes_eq ops b c (fun o ho => h o (by simp [ho])) rem fun x => by rw [hr]; simp [TableOp.Removes]
    | _ => exact (h _ List.mem_cons_self trivial).elim

/-- C97: two calls may be exchanged exactly if neither adds an item the other removes. -/
theorem C97_exchange (p q : TableOp) :
    (∀ b, q.run (p.run b) = p.run (q.run b)) ↔
      ∀ x, ¬ (p.Adds x ∧ q.Removes x) ∧ ¬ (q.Adds x ∧ p.Removes x) := by
  have hmem : ∀ (p q : TableOp) b x, x ∈ (q.run (p.run b)).build.items ↔
      q.Adds x ∨ ((p.Adds x ∨ (x ∈ b.build.items ∧ ¬ p.Removes x)) ∧ ¬ q.Removes x) := by
    intro p q b x
    rw [mem_run, onSet_iff]
    simp only [mem_run, onSet_iff]
  have hx1 : ∀ x, p.Adds x → p.Removes x → False := fun x => adds_removes
  have hx2 : ∀ x, q.Adds x → q.Removes x → False := fun x => adds_removes
  constructor
  · intro hb x
    have h1 := hmem p q TableBuilder.new x
    rw [hb, hmem] at h1
    have := hx1 x; have := hx2 x
    grind
  · intro hx b
    by_cases ha : p.IsAdd ∨ q.IsAdd
    · refine builder_ext (ssorted_ext (runs_ssorted [p, q] b (.inl ?_)) (runs_ssorted [q, p] b (.inl ?_)) fun x => ?_)
        ((run_origin [p, q] b).trans (run_origin [q, p] b).symm)
      · rcases ha with ha | ha
        · exact ⟨p, by simp, ha⟩
        · exact ⟨q, by simp, ha⟩
      · rcases ha with ha | ha
        · exact ⟨p, by simp, ha⟩
        · exact ⟨q, by simp, ha⟩
      · show x ∈ (q.run (p.run b)).build.items ↔ x ∈ (p.run (q.run b)).build.items
        rw [hmem, hmem]
        have := hx x; have := hx1 x; have := hx2 x
        grind
    · have hp : ∀ op ∈ [p, q], ¬ op.IsAdd := by
        intro op ho
        rcases List.mem_cons.1 ho with rfl | ho
        · exact fun h => ha (.inl h)
        · rw [List.mem_singleton.1 ho]; exact fun h => ha (.inr h)
      have hq : ∀ op ∈ [q, p], ¬ op.IsAdd := fun op ho => hp op (by simp at ho ⊢; exact ho.symm)
      have hl : ∃ rem : List Item, ∀ x, x ∈ rem ↔ p.Removes x ∨ q.Removes x := by
        cases p with
        | remove c =>
          cases q with
          | remove d => exact ⟨c ++ d, fun x => by simp [TableOp.Removes]⟩
          | _ => exact absurd (.inr trivial) ha
        | _ => exact absurd (.inl trivial) ha
      obtain ⟨rem, hr⟩ := hl
      have e1 := C97_removals [p, q] (by simp) hp rem (fun x => by simp [hr]) b
      have e2 := C97_removals [q, p] (by simp) hq rem (fun x => by simp [hr, or_comm]) b
      exact e1.trans e2.symm

/-- C97: removing what was added gives the items back exactly if none of them was there before; adding what was
removed exactly if all of them were. -/
theorem C97_undo (σ : Oracle) (b : TableBuilder) (c : List Item) :
    ((∀ x, x ∈ ((b.addCorr σ c).removeCorr c).build.items ↔ x ∈ b.build.items) ↔ ∀ x ∈ c, x ∉ b.build.items) ∧
    ((∀ x, x ∈ ((b.removeCorr c).addCorr σ c).build.items ↔ x ∈ b.build.items) ↔ ∀ x ∈ c, x ∈ b.build.items) := by
  have e1 : ∀ x, x ∈ ((b.addCorr σ c).removeCorr c).build.items ↔ x ∈ b.build.items ∧ x ∉ c := by
    intro x
    have := C03_table_is_a_set b [.add σ c, .remove c] x
    refine this.trans ?_
    simp only [List.foldl_cons, List.foldl_nil, TableOp.onSet]
    grind
  have e2 : ∀ x, x ∈ ((b.removeCorr c).addCorr σ c).build.items ↔ x ∈ b.build.items ∨ x ∈ c := by
    intro x
    have := C03_table_is_a_set b [.remove c, .add σ c] x
    refine this.trans ?_
    simp only [List.foldl_cons, List.foldl_nil, TableOp.onSet]
    grind
  simp only [e1, e2]
  constructor <;> grind

/-- Calls as in `C97_same` and `C97_two_calls`: adding `a → A` and `b → B` and removing `b → B` again comes to the
same as removing `b → B` and adding `a → A`, but not as adding `a → A`. -/
example (σ : Oracle) :
    let ops := [TableOp.add σ [⟨c! "a", c! "A"⟩, ⟨c! "b", c! "B"⟩], .remove [⟨c! "b", c! "B"⟩]]
    (∃ op ∈ ops, op.IsAdd) ∧ LastAdds ops ⟨c! "a", c! "A"⟩ ∧ LastRemoves ops ⟨c! "b", c! "B"⟩ ∧
    ¬ LastRemoves [TableOp.add σ [⟨c! "a", c! "A"⟩]] ⟨c! "b", c! "B"⟩ := by
  refine ⟨⟨_, List.mem_cons_self, trivial⟩, ⟨[], _, _, rfl, by simp [TableOp.Adds], by simp [TableOp.Removes]⟩,
    ⟨[_], _, _, rfl, by simp [TableOp.Removes], by simp⟩, ?_⟩
  rw [lastRemoves_cons]
  rintro (⟨pre, o, post, e, -⟩ | ⟨h, -⟩)
  · simp at e
  · exact h

/-- Removals as in `C97_removals`. -/
example (c d : List Item) : ∀ x, x ∈ c ++ d ↔ ∃ op ∈ [TableOp.remove c, .remove d], op.Removes x := by
  simp [TableOp.Removes]

/-- Calls that may be exchanged as in `C97_exchange`, and calls that may not. -/
example (σ : Oracle) : (∀ b, (TableOp.remove [⟨c! "b", c! "B"⟩]).run ((TableOp.add σ [⟨c! "a", c! "A"⟩]).run b) =
      (TableOp.add σ [⟨c! "a", c! "A"⟩]).run ((TableOp.remove [⟨c! "b", c! "B"⟩]).run b)) ∧
    ¬ ∀ b, (TableOp.remove [⟨c! "a", c! "A"⟩]).run ((TableOp.add σ [⟨c! "a", c! "A"⟩]).run b) =
      (TableOp.add σ [⟨c! "a", c! "A"⟩]).run ((TableOp.remove [⟨c! "a", c! "A"⟩]).run b) := by
  rw [C97_exchange, C97_exchange]
  refine ⟨fun x => ⟨?_, ?_⟩, fun h => (h ⟨c! "a", c! "A"⟩).1 ⟨by simp [TableOp.Adds], by simp [TableOp.Removes]⟩⟩
  · rintro ⟨h1, h2⟩
    rw [List.mem_singleton.1 h1] at h2
    exact absurd (List.mem_singleton.1 h2) (by decide)
  · rintro ⟨h1, -⟩; exact h1

end Chanoma
