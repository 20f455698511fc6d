import Verif.Model.Session
import Verif.Props.Cli
import Verif.Props.Determinism
/-! # C99: what a Python program holds is its own -/

namespace Chanoma

/-- What one statement may do to the objects there are. -/
theorem PyStmt.run_keeps (m : PyMoment) (h : PyHeap) (s : PyStmt) :
    (∀ n, n < h.normalisers.length → (s.run m h).1.normalisers[n]? = h.normalisers[n]?) ∧
    h.normalisers.length ≤ (s.run m h).1.normalisers.length ∧
    (∀ c, c < h.corrs.length → (s.run m h).1.corrs[c]? = h.corrs[c]?) ∧
    h.corrs.length ≤ (s.run m h).1.corrs.length := by
  cases s <;> simp only [PyStmt.run] <;> (repeat' split) <;>
    simp +contextual [List.getElem?_append_left]

theorem after_nil (h : PyHeap) : h.after [] = h := rfl

theorem after_cons (h : PyHeap) (s : PyMoment × PyStmt) (l : List (PyMoment × PyStmt)) :
    h.after (s :: l) = (s.2.run s.1 h).1.after l := rfl

theorem after_append (h : PyHeap) (l l' : List (PyMoment × PyStmt)) :
    h.after (l ++ l') = (h.after l).after l' := List.foldl_append

theorem after_keeps (p : List (PyMoment × PyStmt)) : ∀ (h : PyHeap),
    (∀ n, n < h.normalisers.length → (h.after p).normalisers[n]? = h.normalisers[n]?) ∧
    (∀ c, c < h.corrs.length → (h.after p).corrs[c]? = h.corrs[c]?) := by
  induction p with
  | nil => exact fun h => ⟨fun _ _ => rfl, fun _ _ => rfl⟩
  | cons s p ih =>
    intro h
    obtain ⟨h1, h2, h3, h4⟩ := s.2.run_keeps s.1 h
    rw [after_cons]
    exact ⟨fun n hn => ((ih _).1 n (Nat.lt_of_lt_of_le hn h2)).trans (h1 n hn),
      fun c hc => ((ih _).2 c (Nat.lt_of_lt_of_le hc h4)).trans (h3 c hc)⟩

/-- C99: a normaliser does the same for ever: whatever is done after it was made (to the table it was made of, to
other objects, to files), it makes the same of a text. -/
theorem C99_normaliser (h : PyHeap) (p : List (PyMoment × PyStmt)) (n : Nat) (hn : n < h.normalisers.length)
    (m m' : PyMoment) (hm : m.σs = m'.σs) (text : Str) :
    ((PyStmt.normalize n text).run m' (h.after p)).2 = ((PyStmt.normalize n text).run m h).2 := by
  simp only [PyStmt.run, (after_keeps p h).1 n hn, hm]
  cases h.normalisers[n]? with
  | none => rfl
  | some c => dsimp only; split <;> simp_all

/-- C99: an object with items keeps them: lists it was made of or that were taken from it can be changed without
changing it. -/
theorem C99_corr (h : PyHeap) (p : List (PyMoment × PyStmt)) (c : Nat) (l : List Item)
    (hc : h.corrs[c]? = some l) : (h.after p).corrs[c]? = some l := by
  rw [(after_keeps p h).2 c (List.getElem?_eq_some_iff.mp hc).1, hc]

theorem run_tables (m : PyMoment) (h : PyHeap) (s : PyStmt) (t : Nat) (tb : Table) (ht : h.tables[t]? = some tb) :
    ∃ tb', (s.run m h).1.tables[t]? = some tb' ∧ tb'.origin = tb.origin ∧ ∀ x, x ∈ tb'.items ↔ x ∈ tb.items ∨
      ∃ c l, s = .tableAdd t c ∧ h.corrs[c]? = some l ∧ x ∈ l := by
  have hl := (List.getElem?_eq_some_iff.mp ht).1
  have same : ∀ {h' : PyHeap}, h'.tables[t]? = some tb → (∀ c, s ≠ .tableAdd t c) → ∃ tb', h'.tables[t]? = some tb' ∧
      tb'.origin = tb.origin ∧ ∀ x, x ∈ tb'.items ↔ x ∈ tb.items ∨ ∃ c l, s = .tableAdd t c ∧ h.corrs[c]? = some l ∧ x ∈ l :=
    fun h1 h2 => ⟨tb, h1, rfl, fun x => ⟨.inl, fun hx => hx.elim id fun ⟨c, _, hc, _⟩ => (h2 c hc).elim⟩⟩
  by_cases hs : ∃ c, s = .tableAdd t c
  · obtain ⟨c, rfl⟩ := hs
    simp only [PyStmt.run, ht]
    cases hc : h.corrs[c]? with
    | none =>
      refine ⟨tb, ht, rfl, fun x => ⟨.inl, fun hx => hx.elim id ?_⟩⟩
      rintro ⟨c', l, h1, h2, -⟩
      cases h1
      rw [hc] at h2
      cases h2
    | some l =>
      refine ⟨pyTableAdd m.σ tb l, by simp [hl], rfl, fun x => ?_⟩
      rw [C46_table_add]
      refine or_congr Iff.rfl ⟨fun hx => ⟨c, l, rfl, hc, hx⟩, ?_⟩
      rintro ⟨c', l', h1, h2, hx⟩
      cases h1
      rw [hc] at h2
      cases h2
      exact hx
  · have hs : ∀ c, s ≠ .tableAdd t c := fun c hc => hs ⟨c, hc⟩
    refine same ?_ hs
    cases s with
    | tableAdd t' c =>
      have : t' ≠ t := fun e => hs c (by rw [e])
      simp only [PyStmt.run]
      split
      · simpa [List.getElem?_set_ne this] using ht
      · exact ht
    | newTable a b d =>
      simp only [PyStmt.run]
      split
      · simpa [List.getElem?_append_left hl] using ht
      · exact ht
    | _ => simp only [PyStmt.run] <;> (repeat' split) <;> exact ht

/-- C99: what a table holds after any program: what it held before, and what was added to this table, no matter
what is done to other tables; and it keeps its origin. -/
theorem C99_table (p : List (PyMoment × PyStmt)) : ∀ (h : PyHeap) (t : Nat) (tb : Table), h.tables[t]? = some tb →
    ∃ tb', (h.after p).tables[t]? = some tb' ∧ tb'.origin = tb.origin ∧ ∀ x, x ∈ tb'.items ↔ x ∈ tb.items ∨
      ∃ before m c after l, p = before ++ (m, .tableAdd t c) :: after ∧ (h.after before).corrs[c]? = some l ∧ x ∈ l := by
  induction p with
  | nil => exact fun h t tb ht => ⟨tb, ht, rfl, fun x => by simp⟩
  | cons s p ih =>
    intro h t tb ht
    obtain ⟨tb1, h1, h2, h3⟩ := run_tables s.1 h s.2 t tb ht
    obtain ⟨tb2, h4, h5, h6⟩ := ih _ t tb1 h1
    refine ⟨tb2, h4, h5.trans h2, fun x => ?_⟩
    rw [h6, h3]
    constructor
    · rintro ((hx | ⟨c, l, hc, hl, hx⟩) | ⟨before, m, c, after, l, hp, hl, hx⟩)
      · exact .inl hx
      · exact .inr ⟨[], s.1, c, p, l, by rw [← hc]; rfl, hl, hx⟩
      · exact .inr ⟨s :: before, m, c, after, l, by rw [hp]; rfl, hl, hx⟩
    · rintro (hx | ⟨before, m, c, after, l, hp, hl, hx⟩)
      · exact .inl (.inl hx)
      · cases before with
        | nil =>
          injection hp with hp1 hp2
          exact .inl (.inr ⟨c, l, by rw [hp1], hl, hx⟩)
        | cons b before =>
          injection hp with hp1 hp2
          subst hp1
          exact .inr ⟨before, m, c, after, l, hp2, hl, hx⟩

/-- C99: a list changes by what is appended to it, and by nothing else. -/
theorem C99_list (p : List (PyMoment × PyStmt)) : ∀ (h : PyHeap) (i : Nat) (l : List Item), h.lists[i]? = some l →
    (h.after p).lists[i]? = some (l ++ p.filterMap fun s => match s.2 with
      | .append j x => if j = i then some x else none
      | _ => none) := by
  induction p with
  | nil => intro h i l hl; simpa [after_nil] using hl
  | cons s p ih =>
    intro h i l hl
    have hi := (List.getElem?_eq_some_iff.mp hl).1
    rw [after_cons]
    obtain ⟨m, s⟩ := s
    cases s with
    | append j x =>
      by_cases hj : j = i
      · subst hj
        rw [ih _ j (l ++ [x]) (by simp only [PyStmt.run, hl]; simp [hi])]
        simp
      · rw [ih _ i l (by simp only [PyStmt.run]; split <;> simp_all)]
        simp [hj]
    | _ =>
      rw [ih _ i l (by
        simp only [PyStmt.run] <;> (repeat' split) <;> simp_all [List.getElem?_append_left])]
      simp

/-- C99: a statement that raises an exception leaves everything as it was. -/
theorem C99_raised (m : PyMoment) (h : PyHeap) (s : PyStmt) (hr : (s.run m h).2 = .raised) :
    (s.run m h).1 = h := by
  cases s <;> simp only [PyStmt.run] at hr ⊢ <;> (repeat' split at hr) <;> simp_all

/-- C99: a normaliser made of a table works with the items the table has when it is made, whatever is added to the
table afterwards. -/
theorem C99_items_when_made (h : PyHeap) (before after : List (PyMoment × PyStmt)) (m m' : PyMoment) (t : Nat)
    (tb : Table) (ht : (h.after before).tables[t]? = some tb) (hne : CellsNonEmpty tb.items) (text : Str) :
    ((PyStmt.normalize (h.after before).normalisers.length text).run m'
      (h.after (before ++ (m, .newChanoma (some t) false false false none) :: after))).2 =
      .text (substitute (itemSubst tb.items) text) := by
  obtain ⟨c, hc, hn⟩ := (C46_normalize m.σ m.world ⟨some tb, false, false, false, none⟩).1 Chanoma.new rfl
    (fun t ht => by cases ht; exact hne)
  rw [after_append, after_cons, C99_normaliser _ after _ (by simp [PyStmt.run, ht, hc]) m' m' rfl]
  obtain ⟨out, h1, h2⟩ := hn m'.σs text
  simp only [PyStmt.run, ht, hc, List.getElem?_concat_length, h2]
  cases h1
  rfl

/-- C99: so an item added to a table counts for the normalisers made afterwards and not for those made before, of
the same table. -/
theorem C99_late (m : Nat → PyMoment) :
    let h := PyHeap.after {} [(m 0, .newTable false none none), (m 1, .newChanoma (some 0) false false false none),
      (m 2, .newList [⟨c! "a", c! "b"⟩]), (m 3, .newCorr 0), (m 4, .append 0 ⟨c! "a", c! "c"⟩), (m 5, .tableAdd 0 0),
      (m 6, .newChanoma (some 0) false false false none)]
    ∀ m', ((PyStmt.normalize 0 (c! "aa")).run m' h).2 = .text (c! "aa") ∧
      ((PyStmt.normalize 1 (c! "aa")).run m' h).2 = .text (c! "bb") := by
  intro h m'
  constructor
  · have := C99_items_when_made {} [(m 0, .newTable false none none)] [(m 2, .newList [⟨c! "a", c! "b"⟩]),
      (m 3, .newCorr 0), (m 4, .append 0 ⟨c! "a", c! "c"⟩), (m 5, .tableAdd 0 0),
      (m 6, .newChanoma (some 0) false false false none)] (m 1) m' 0 Table.new rfl (by intro i hi; cases hi) (c! "aa")
    exact this.trans (by decide +kernel)
  · have e : some (Table.mk (corrAddAssign (m 5).σ [] [⟨c! "a", c! "b"⟩]) .new) =
        some (Table.new.add .insertion [⟨c! "a", c! "b"⟩]) := by
      rw [corrAddAssign_oracle (m 5).σ .insertion]; rfl
    have := C99_items_when_made {} [(m 0, .newTable false none none), (m 1, .newChanoma (some 0) false false false none),
      (m 2, .newList [⟨c! "a", c! "b"⟩]), (m 3, .newCorr 0), (m 4, .append 0 ⟨c! "a", c! "c"⟩), (m 5, .tableAdd 0 0)] []
      (m 6) m' 0 (Table.new.add .insertion [⟨c! "a", c! "b"⟩]) e
      (by decide +kernel) (c! "aa")
    exact this.trans (by decide +kernel)

/-- Objects to which the theorems apply: a list taken from a correspondence can be changed, and a table has been
added to. -/
example (m : PyMoment) :
    let h := PyHeap.after {} [(m, .newList [⟨c! "a", c! "b"⟩]), (m, .newCorr 0), (m, .getItems 0),
      (m, .append 1 ⟨c! "x", c! "y"⟩), (m, .newTable false none none), (m, .newChanoma none true false false none)]
    h.corrs = [[⟨c! "a", c! "b"⟩]] ∧
    h.lists = [[⟨c! "a", c! "b"⟩], [⟨c! "a", c! "b"⟩, ⟨c! "x", c! "y"⟩]] ∧
    h.tables[0]? = some Table.new ∧ h.normalisers.length = 1 := by
  obtain ⟨c, hc⟩ : ∃ c, pyChanomaNew m.σ m.world ⟨none, true, false, false, none⟩ = .ok c :=
    (C46_normalize m.σ m.world ⟨none, true, false, false, none⟩).1 Chanoma.new rfl (fun t ht => by cases ht)
      |>.imp fun c h => h.1
  refine ⟨?_, ?_, ?_, ?_⟩ <;> simp [PyHeap.after, PyStmt.run, pyTableNew, hc] <;> rfl

/-- Statements that raise exceptions. -/
example (m : PyMoment) (h : PyHeap) : ((PyStmt.tableAddOther 0).run m h).2 = .raised ∧
    ((PyStmt.tableAdd h.tables.length 0).run m h).2 = .raised := by
  simp [PyStmt.run]

end Chanoma
