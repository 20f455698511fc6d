import Verif.Props.Reversible
import Verif.Props.Ligature
/-! # C32: exactly which tables are honoured -/

namespace Chanoma

theorem replaced_nil_eq {R : List (Str × Str)} {t o : Str} (h : Replaced R t o) (ht : t = []) : o = [] := by
  cases h with
  | nil => rfl
  | hit _ h1 _ => exact absurd (List.append_eq_nil_iff.1 ht).1 h1
  | keep _ _ => cases ht

/-- C32, exactly: a table does what its items say (their `from`s, found from left to right, replaced by
their `to`s) if and only if every `from` begins with the `from` of an item whose `to` is what comes of
replacing its characters one by one, and a character is replaced by another one only if it is, alone,
the `from` of an item. -/
theorem C32_honoured_table_iff (t : Table) (c : Chanoma) (σs : Nat → Oracle) (debug : Bool)
    (hc : Chanoma.fromTable t = .ok c) :
    (∀ text, ∃ out, c.normalize σs debug text = .ok out ∧
        Replaced (t.items.map fun i => (i.from, i.to)) text out) ↔
      (∀ i ∈ t.items, ∃ j ∈ t.items, j.from <+: i.from ∧ j.to = substitute (itemSubst t.items) j.from) ∧
      ∀ ch d, itemSubst t.items ch = some d → (∃ j ∈ t.items, j.from = [ch]) ∨ d = ch := by
  have hne : CellsNonEmpty t.items := Classical.byContradiction fun h => by
    simp [Chanoma.fromTable, fromTables_one_panic t h] at hc
  have hmem : ∀ k v, (k, v) ∈ (t.items.map fun i => (i.from, i.to)) → ∃ j ∈ t.items, j.from = k ∧ j.to = v := by
    intro k v h
    obtain ⟨j, hj, e⟩ := List.mem_map.1 h
    exact ⟨j, hj, (Prod.mk.inj e).1, (Prod.mk.inj e).2⟩
  constructor
  · intro h
    have h : ∀ text, Replaced (t.items.map fun i => (i.from, i.to)) text (substitute (itemSubst t.items) text) := by
      intro text
      obtain ⟨out, h1, h2⟩ := h text
      rw [fromTable_normalize t c hc, Outcome.ok.injEq] at h1
      rwa [h1]
    constructor
    · suffices hs : ∀ n, ∀ i ∈ t.items, i.from.length ≤ n →
          ∃ j ∈ t.items, j.from <+: i.from ∧ j.to = substitute (itemSubst t.items) j.from from
        fun i hi => hs _ i hi (Nat.le_refl _)
      intro n
      induction n with
      | zero =>
        intro i hi h0
        exact absurd (List.length_eq_zero_iff.1 (Nat.le_zero.1 h0)) (hne i hi).1
      | succ n ih =>
        intro i hi hl
        have hr := h i.from
        generalize ht : i.from = text at hr
        generalize ho : substitute (itemSubst t.items) text = out at hr
        cases hr with
        | nil => exact absurd ht (hne i hi).1
        | @hit k v t' o hk hk0 hr =>
          obtain ⟨j, hj, h1, h2⟩ := hmem k v hk
          by_cases ht' : t' = []
          · subst ht'
            have ho' := replaced_nil_eq hr rfl
            subst ho'
            refine ⟨j, hj, ⟨[], by rw [h1]⟩, ?_⟩
            rw [h1, h2]
            simpa using ho.symm
          · have hlen : j.from.length ≤ n := by
              have := List.length_pos_iff.2 ht'
              rw [ht, List.length_append] at hl
              rw [h1]; omega
            obtain ⟨j', hj', h3, h4⟩ := ih j hj hlen
            exact ⟨j', hj', h3.trans ⟨t', by rw [h1]⟩, h4⟩
        | keep hno _ =>
          exact absurd ⟨[], by rw [← ht]; simp⟩ (hno _ (List.mem_map.2 ⟨i, hi, rfl⟩))
    · intro ch d hd
      have hr := h [ch]
      have he : substitute (itemSubst t.items) [ch] = [d] := by simp [substitute, hd]
      rw [he] at hr
      generalize ht : [ch] = text at hr
      generalize ho : [d] = out at hr
      cases hr with
      | nil => cases ht
      | @hit k v t' o hk hk0 _ =>
        obtain ⟨j, hj, h1, -⟩ := hmem k v hk
        refine .inl ⟨j, hj, ?_⟩
        rw [h1]
        match k, hk0 with
        | a :: k, _ =>
          simp only [List.cons_append, List.cons.injEq] at ht
          obtain ⟨e1, e2⟩ := List.append_eq_nil_iff.1 ht.2.symm
          rw [e1, e2]
          rfl
      | keep _ _ =>
        exact .inr ((List.cons.inj ho).1.trans (List.cons.inj ht).1.symm)
  · rintro ⟨h1, h2⟩ text
    refine ⟨_, fromTable_normalize t c hc σs debug text, ?_⟩
    suffices hs : ∀ n (text : Str), text.length ≤ n →
        Replaced (t.items.map fun i => (i.from, i.to)) text (substitute (itemSubst t.items) text) from
      hs _ text (Nat.le_refl _)
    intro n
    induction n with
    | zero =>
      intro text h0
      rw [List.length_eq_zero_iff.1 (Nat.le_zero.1 h0)]
      exact .nil
    | succ n ih =>
      intro text hl
      cases text with
      | nil => exact .nil
      | cons ch text =>
        by_cases hex : ∃ i ∈ t.items, i.from <+: ch :: text
        · obtain ⟨i, hi, hp⟩ := hex
          obtain ⟨j, hj, hp', hv⟩ := h1 i hi
          obtain ⟨t', ht'⟩ := hp'.trans hp
          have hj0 := (hne j hj).1
          have hlen : t'.length ≤ n := by
            have := List.length_pos_iff.2 hj0
            have h3 := congrArg List.length ht'
            rw [List.length_append] at h3
            omega
          rw [← ht']
          have := Replaced.hit (rules := t.items.map fun i => (i.from, i.to))
            (List.mem_map.2 ⟨j, hj, rfl⟩) hj0 (ih t' hlen)
          rw [hv] at this
          simpa [substitute] using this
        · have hkeep : (itemSubst t.items ch).getD ch = ch := by
            cases hd : itemSubst t.items ch with
            | none => rfl
            | some d =>
              rcases h2 ch d hd with ⟨j, hj, e⟩ | e
              · exact absurd ⟨j, hj, text, by rw [e]; rfl⟩ hex
              · exact e
          have e : substitute (itemSubst t.items) (ch :: text) = ch :: substitute (itemSubst t.items) text := by
            simp [substitute, hkeep]
          rw [e]
          refine .keep ?_ (ih text (by simpa using hl))
          intro r hr hp
          obtain ⟨i, hi, e⟩ := List.mem_map.1 hr
          exact hex ⟨i, hi, by rw [← e] at hp; exact hp⟩

/-- C32, exactly, for one item: it is honoured if and only if both sides are single characters or the
same. -/
theorem C32_honoured_iff (f t : Str) (c : Chanoma) (σs : Nat → Oracle) (debug : Bool)
    (hc : Chanoma.fromTable (Table.fromCorr [⟨f, t⟩] .new) = .ok c) :
    (∀ text, ∃ out, c.normalize σs debug text = .ok out ∧ Replaced [(f, t)] text out) ↔
      f.length = 1 ∧ t.length = 1 ∨ f = t := by
  have hne : CellsNonEmpty [⟨f, t⟩] := Classical.byContradiction fun h => by
    simp [Chanoma.fromTable, fromTables_one_panic (Table.fromCorr [⟨f, t⟩] .new) h] at hc
  have key := C32_honoured_table_iff (Table.fromCorr [⟨f, t⟩] .new) c σs debug hc
  have hi : (Table.fromCorr [⟨f, t⟩] .new).items = [⟨f, t⟩] := rfl
  rw [hi, List.map_cons, List.map_nil] at key
  refine key.trans ?_
  obtain ⟨hf, ht⟩ := hne _ (List.mem_singleton.2 rfl)
  match f, t, hf, ht with
  | a :: f, b :: t, _, _ =>
    have hs : ∀ ch, itemSubst [⟨a :: f, b :: t⟩] ch = if a = ch then some b else none := by
      intro ch
      by_cases e : a = ch <;> simp [itemSubst, e]
    constructor
    · rintro ⟨h1, h2⟩
      obtain ⟨j, hj, -, hv⟩ := h1 _ (List.mem_singleton.2 rfl)
      rw [List.mem_singleton.1 hj] at hv
      rcases h2 a b (by simp [hs]) with ⟨j, hj, e⟩ | e
      · rw [List.mem_singleton.1 hj] at e
        have hf0 : f = [] := (List.cons.inj e).2
        have := congrArg List.length hv
        simp [substitute, hf0] at this
        simp [hf0, this]
      · right
        simp only at hv
        have : substitute (itemSubst [⟨a :: f, b :: t⟩]) (a :: f) = a :: f := by
          rw [substitute]
          conv => rhs; rw [← List.map_id (a :: f)]
          refine List.map_inj_left.2 fun x _ => ?_
          rw [hs]
          by_cases e' : a = x
          · simp [e', e]
          · simp [e']
        rw [hv, this]
    · rintro (⟨h1, h2⟩ | h)
      · have hf0 : f = [] := by simpa using h1
        have ht0 : t = [] := by simpa using h2
        subst hf0 ht0
        refine ⟨fun i hi => ⟨_, List.mem_singleton.2 rfl, ?_, ?_⟩, fun ch d hd => ?_⟩
        · rw [List.mem_singleton.1 hi]; exact List.prefix_refl _
        · simp [substitute, hs]
        · rw [hs] at hd
          split at hd
          · rename_i e; exact .inl ⟨_, List.mem_singleton.2 rfl, by rw [e]⟩
          · cases hd
      · obtain ⟨hab, hft⟩ := List.cons.inj h
        refine ⟨fun i hi => ⟨_, List.mem_singleton.2 rfl, ?_, ?_⟩, fun ch d hd => ?_⟩
        · rw [List.mem_singleton.1 hi]; exact List.prefix_refl _
        · rw [substitute, ← h]
          conv => lhs; rw [← List.map_id (a :: f)]
          refine List.map_inj_left.2 fun x _ => ?_
          have := hs x
          rw [← h] at this
          rw [this, ← hab]
          by_cases e' : a = x <;> simp [e']
        · rw [hs] at hd
          split at hd
          · rename_i e
            right
            rw [← Option.some.inj hd, ← hab, e]
          · cases hd

/-- Items that meet the condition (the longer ones only because the shorter ones do the same), and
items that do not. -/
def exHonoured : List Item := [⟨c! "a", c! "x"⟩, ⟨c! "ab", c! "xy"⟩, ⟨c! "b", c! "y"⟩, ⟨c! "sea", c! "sex"⟩]

example : CellsNonEmpty exHonoured ∧
    (∀ i ∈ exHonoured, ∃ j ∈ exHonoured, j.from <+: i.from ∧ j.to = substitute (itemSubst exHonoured) j.from) := by
  decide +kernel
example : ∀ ch d, itemSubst exHonoured ch = some d → (∃ j ∈ exHonoured, j.from = [ch]) ∨ d = ch := by
  intro ch d h
  have key : ∀ ch ∈ exHonoured.filterMap (·.from.head?),
      (∃ j ∈ exHonoured, j.from = [ch]) ∨ itemSubst exHonoured ch = some ch := by decide +kernel
  rcases key ch (itemSubst_mem h) with h1 | h1
  · exact .inl h1
  · rw [h] at h1; exact .inr (Option.some.inj h1)
example : CellsNonEmpty [⟨c! "sea", c! "C"⟩] ∧ ¬ ((c! "sea").length = 1 ∧ (c! "C").length = 1 ∨ c! "sea" = c! "C") := by
  decide +kernel
example : ∃ c, Chanoma.fromTable (Table.fromCorr [⟨c! "①", c! "1"⟩] .new) = .ok c := ⟨_, rfl⟩

end Chanoma
