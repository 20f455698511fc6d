import Verif.Props.Sets
import Verif.Props.Tables
/-! # C56, C57: removing from the preset, and conflicting items -/

namespace Chanoma

theorem substitute_congr {f g : Char → Option Char} {text : Str}
    (h : ∀ c ∈ text, (f c).getD c = (g c).getD c) : substitute f text = substitute g text :=
  List.map_congr_left h

/-! ## C57 -/

theorem itemSubst_greatest {items : List Item} (hs : items.Pairwise ItemLt) {c : Char} {i : Item}
    (hi : i ∈ items) (hc : i.from.head? = some c)
    (hg : ∀ j ∈ items, j.from.head? = some c → ItemLe j i) : itemSubst items c = i.to.head? := by
  obtain ⟨l, r, rfl⟩ := List.append_of_mem hi
  unfold itemSubst
  have : (l ++ i :: r).reverse.find? (fun i => decide (i.from.head? = some c)) = some i := by
    rw [List.find?_eq_some_iff_append]
    refine ⟨by simp [hc], r.reverse, l.reverse, by simp, fun j hj => ?_⟩
    have hj' : j ∈ r := by simpa using hj
    suffices j.from.head? ≠ some c by simpa using this
    intro hjc
    have h1 : ItemLt i j := by
      rw [List.pairwise_append] at hs
      exact (List.pairwise_cons.mp hs.2.1).1 j hj'
    have h2 := hg j (by simp [hj']) hjc
    exact h1.2 (ItemLe.antisymm h1.1 h2)
  rw [this]

/-- C57: after any calls with an addition among them, the normaliser replaces each character by the
first character of the target of the greatest item (by source, then by target) whose source starts
with it; `S` is the set of items obtained by the calls. -/
theorem C57_greatest_item_wins (b : TableBuilder) (ops : List TableOp) (hadd : ∃ op ∈ ops, op.IsAdd)
    (S : Item → Prop) (hS : S = ops.foldl TableOp.onSet (fun y => y ∈ b.build.items))
    (hne : ∀ i, S i → i.from ≠ [] ∧ i.to ≠ []) :
    ∃ c, Chanoma.fromTable (ops.foldl TableOp.run b).build = .ok c ∧
      ∀ σs debug (text : Str), ∃ out : Str, c.normalize σs debug text = .ok out ∧
        out.length = text.length ∧
        ∀ (i : Nat) ch, text[i]? = some ch →
          (∀ it, S it → it.from.head? = some ch → (∀ j, S j → j.from.head? = some ch → ItemLe j it) →
            out[i]? = it.to.head?) ∧
          ((∀ it, S it → it.from.head? ≠ some ch) → out[i]? = some ch) := by
  have hmem : ∀ x, x ∈ (ops.foldl TableOp.run b).build.items ↔ S x := fun x => by
    rw [C03_table_is_a_set, hS]
  obtain ⟨c, h1, h2⟩ := C01_table_substitution (ops.foldl TableOp.run b).build
    (fun i hi => hne i ((hmem i).mp hi))
  refine ⟨c, h1, fun σs debug text => ⟨_, h2 σs debug text, by simp [substitute], fun i ch hi => ⟨?_, ?_⟩⟩⟩
  · intro it hit hc hg
    have := itemSubst_greatest (C04_listing_canonical b ops hadd) ((hmem it).mpr hit) hc
      (fun j hj hjc => hg j ((hmem j).mp hj) hjc)
    obtain ⟨d, hd⟩ : ∃ d, it.to.head? = some d := by
      have := (hne it hit).2
      cases ht : it.to with
      | nil => exact absurd ht this
      | cons d _ => exact ⟨d, rfl⟩
    simp [substitute, hi, this, hd]
  · intro hn
    have := itemSubst_none (items := (ops.foldl TableOp.run b).build.items) (c := ch)
      (fun j hj => hn j ((hmem j).mp hj))
    simp [substitute, hi, this]

/-- C57: a greatest item exists whenever some item applies, so that the first part of the previous
theorem decides every such character. -/
theorem C57_greatest_exists (b : TableBuilder) (ops : List TableOp) (hadd : ∃ op ∈ ops, op.IsAdd)
    (S : Item → Prop) (hS : S = ops.foldl TableOp.onSet (fun y => y ∈ b.build.items))
    (ch : Char) (i : Item) (hi : S i) (hc : i.from.head? = some ch) :
    ∃ it, S it ∧ it.from.head? = some ch ∧ ∀ j, S j → j.from.head? = some ch → ItemLe j it := by
  have hmem : ∀ x, x ∈ (ops.foldl TableOp.run b).build.items ↔ S x := fun x => by
    rw [C03_table_is_a_set, hS]
  have hs := C04_listing_canonical b ops hadd
  generalize (ops.foldl TableOp.run b).build.items = items at hmem hs
  suffices ∃ it ∈ items, it.from.head? = some ch ∧ ∀ j ∈ items, j.from.head? = some ch → ItemLe j it by
    obtain ⟨it, h1, h2, h3⟩ := this
    exact ⟨it, (hmem it).mp h1, h2, fun j hj => h3 j ((hmem j).mpr hj)⟩
  have hi' := (hmem i).mpr hi
  clear hmem hi
  cases hf : items.reverse.find? fun i => i.from.head? = some ch with
  | none =>
    rw [List.find?_eq_none] at hf
    exact absurd (by simpa using hc) (hf i (by simpa using hi'))
  | some it =>
    rw [List.find?_eq_some_iff_append] at hf
    obtain ⟨hp, as, bs, hrev, has⟩ := hf
    have e : items = bs.reverse ++ it :: as.reverse := by
      have := congrArg List.reverse hrev
      simpa using this
    refine ⟨it, by simp [e], by simpa using hp, fun j hj hjc => ?_⟩
    rw [e] at hs hj
    rw [List.pairwise_append] at hs
    rcases List.mem_append.mp hj with h | h
    · exact (hs.2.2 j h it (by simp)).1
    · rcases List.mem_cons.mp h with rfl | h
      · exact ItemLe.refl _
      · have := has j (by simpa using h)
        simp [hjc] at this

/-- C57: recency plays no part: whichever of two one-character rules for `c` is added last, the one
with the greater target wins. -/
theorem C57_not_the_last (σ τ : Oracle) (c x y : Char) (hxy : x.toNat < y.toNat) (rules : List (List Item))
    (hr : rules = [[⟨[c], [x]⟩], [⟨[c], [y]⟩]] ∨ rules = [[⟨[c], [y]⟩], [⟨[c], [x]⟩]]) :
    ∃ n, Chanoma.fromTable ((rules.map (TableOp.add σ)).foldl TableOp.run TableBuilder.new).build = .ok n ∧
      n.normalize (fun _ => τ) false [c] = .ok [y] := by
  have hS : ∀ z, (rules.map (TableOp.add σ)).foldl TableOp.onSet (fun z => z ∈ TableBuilder.new.build.items) z ↔
      z = ⟨[c], [x]⟩ ∨ z = ⟨[c], [y]⟩ := by
    intro z
    rcases hr with rfl | rfl <;>
      simp [TableOp.onSet, TableBuilder.new, TableBuilder.build, Table.items, Table.new, or_comm]
  obtain ⟨n, h1, h2⟩ := C57_greatest_item_wins TableBuilder.new (rules.map (TableOp.add σ))
    (by rcases hr with rfl | rfl <;> simp [TableOp.IsAdd]) _ rfl
    (fun i hi => by rcases (hS i).mp hi with rfl | rfl <;> simp)
  refine ⟨n, h1, ?_⟩
  obtain ⟨out, h3, h4, h5⟩ := h2 (fun _ => τ) false [c]
  have h6 := (h5 0 c rfl).1 ⟨[c], [y]⟩ ((hS _).mpr (.inr rfl)) rfl (fun j hj _ => by
    rcases (hS j).mp hj with rfl | rfl
    · exact .inr ⟨rfl, .lt _ _ hxy⟩
    · exact ItemLe.refl _)
  rw [h3]
  match out, h4, h6 with
  | [d], _, h6 => simp at h6; rw [h6]

/-- `！ → !` added after `！ → A` does not win. -/
example : ∃ n, Chanoma.fromTable (([[⟨c! "！", c! "A"⟩], [⟨c! "！", c! "!"⟩]].map
      (TableOp.add .insertion)).foldl TableOp.run TableBuilder.new).build = .ok n ∧
    n.normalize (fun _ => .reversed) false (c! "！") = .ok (c! "A") :=
  C57_not_the_last _ _ '！' '!' 'A' (by decide) _ (.inr rfl)

/-! ## C56 -/

/-- C56: the preset without the items of `r` keeps exactly the characters whose item was removed, and
folds the others. -/
theorem C56_preset_without (σ : Oracle) (r : List Item) :
    ∃ c, Chanoma.fromTable ((TableBuilder.new.preset σ).removeCorr r).build = .ok c ∧
      ∀ σs debug text, c.normalize σs debug text =
        .ok (text.map fun ch => if (⟨[ch], [presetFold ch]⟩ : Item) ∈ r then ch else presetFold ch) := by
  have hmem : ∀ x, x ∈ ((TableBuilder.new.preset σ).removeCorr r).build.items ↔
      x ∈ presetConsts ∧ x ∉ r := fun x => by
    have := mem_run (TableBuilder.new.preset σ) (.remove r) x
    rw [← mem_presetTable (σ := σ)]
    simpa [TableOp.run, TableOp.onSet] using this
  obtain ⟨c, h1, h2⟩ := C01_table_substitution ((TableBuilder.new.preset σ).removeCorr r).build
    (fun i hi => preset_cells i ((hmem i).mp hi).1)
  refine ⟨c, h1, fun σs debug text => ?_⟩
  rw [h2, substitute]
  congr 1
  apply List.map_congr_left
  intro ch _
  by_cases hf : presetFold ch = ch
  · rw [itemSubst_none]
    · simp [hf]
    · intro i hi hic
      obtain ⟨d, hd, rfl⟩ := (C07_items σ i).mp (mem_presetTable.mpr ((hmem i).mp hi).1)
      simp at hic; subst hic
      exact hd hf
  · split
    · rename_i hr
      rw [itemSubst_none]
      · rfl
      · intro i hi hic
        obtain ⟨d, hd, rfl⟩ := (C07_items σ i).mp (mem_presetTable.mpr ((hmem i).mp hi).1)
        simp at hic; subst hic
        exact ((hmem _).mp hi).2 hr
    · rename_i hr
      have hi := (hmem ⟨[ch], [presetFold ch]⟩).mpr
        ⟨mem_presetTable.mp ((C07_items σ _).mpr ⟨ch, hf, rfl⟩), hr⟩
      obtain ⟨j, hj, hjc, e⟩ := itemSubst_some (c := ch) hi rfl
      obtain ⟨d, hd, rfl⟩ := (C07_items σ j).mp (mem_presetTable.mpr ((hmem j).mp hj).1)
      simp at hjc; subst hjc
      rw [e]; rfl

/-- C56 for the predefined sets: the preset without one of the four sets keeps the characters of that
class and folds the rest. -/
theorem C56_preset_without_set (σ τ : Oracle) (r : List Item) (P : Char → Prop) [DecidablePred P]
    (hr : (r = digitsItems τ ∧ P = IsWideDigit) ∨ (r = alphabetsItems τ ∧ P = IsWideLetter) ∨
      (r = kanasItems τ ∧ P = IsNarrowKana) ∨ (r = punctuationsItems τ ∧ P = IsWideSymbol)) :
    ∃ c, Chanoma.fromTable ((TableBuilder.new.preset σ).removeCorr r).build = .ok c ∧
      ∀ σs debug text, c.normalize σs debug text =
        .ok (text.map fun ch => if P ch then ch else presetFold ch) := by
  obtain ⟨c, h1, h2⟩ := C56_preset_without σ r
  refine ⟨c, h1, fun σs debug text => ?_⟩
  rw [h2]
  have key : ∀ (ch : Char), (⟨[ch], [presetFold ch]⟩ : Item) ∈ r ↔ P ch := by
    intro ch
    obtain ⟨s1, s2, s3, s4⟩ := C51_sets τ ⟨[ch], [presetFold ch]⟩
    have e : ∀ Q : Char → Prop, (∃ d, Q d ∧ (⟨[ch], [presetFold ch]⟩ : Item) = ⟨[d], [presetFold d]⟩) ↔ Q ch := by
      intro Q
      constructor
      · rintro ⟨d, hd, e⟩
        simp only [Item.mk.injEq, List.cons.injEq, and_true] at e
        rw [e.1]; exact hd
      · exact fun h => ⟨ch, h, rfl⟩
    rw [e] at s1 s2 s3 s4
    rcases hr with ⟨rfl, rfl⟩ | ⟨rfl, rfl⟩ | ⟨rfl, rfl⟩ | ⟨rfl, rfl⟩ <;> assumption
  simp only [key]

/-- Keeping full-width digits and folding the rest. -/
example : (c! "Ａ１ｱ！").map (fun ch => if IsWideDigit ch then ch else presetFold ch) = c! "A１ア!" := by
  decide +kernel

end Chanoma
