import Verif.Proofs.Corr
import Verif.Spec.TableOps
/-! # Membership in the predefined character sets -/

namespace Chanoma

theorem mem_sumChain {σ : Oracle} {cs : List Item} {x : Item} : x ∈ sumChain σ cs ↔ x ∈ cs := by
  cases cs with
  | nil => simp [sumChain]
  | cons c cs =>
    simp only [sumChain]
    suffices ∀ acc : List Item, x ∈ cs.foldl (fun acc i => corrAdd σ acc (linearItems i.from i.to)) acc ↔
        x ∈ acc ∨ x ∈ cs by
      rw [this]; simp [linearItems]
    induction cs with
    | nil => simp
    | cons d cs ih =>
      intro acc
      rw [List.foldl_cons, ih, mem_corrAdd]
      simp [linearItems, or_assoc]

theorem mem_allItems {σ : Oracle} {x : Item} : x ∈ allItems σ ↔ PresetItem x := by
  simp only [allItems, mem_corrAdd, digitsItems, punctuationsItems, alphabetsItems, kanasItems,
    mem_sumChain, PresetItem, or_assoc]

theorem allItems_ssorted (σ : Oracle) : SSorted (allItems σ) := corrAdd_ssorted _ _ _

theorem allItems_oracle (σ τ : Oracle) : allItems σ = allItems τ :=
  ssorted_ext (allItems_ssorted σ) (allItems_ssorted τ) fun x => by rw [mem_allItems, mem_allItems]

theorem mem_run (b : TableBuilder) (op : TableOp) (x : Item) :
    x ∈ (op.run b).build.items ↔ op.onSet (fun y => y ∈ b.build.items) x := by
  cases op with
  | add σ c => exact mem_corrAdd
  | remove c => exact mem_corrSub
  | preset σ =>
    show x ∈ corrAdd σ _ (allItems σ) ↔ _
    rw [mem_corrAdd, mem_allItems]; rfl

theorem run_ssorted (b : TableBuilder) (op : TableOp) (h : op.IsAdd ∨ SSorted b.build.items) :
    SSorted (op.run b).build.items := by
  cases op with
  | add σ c => exact corrAdd_ssorted _ _ _
  | remove c =>
    rcases h with h | h
    · exact h.elim
    · exact corrSub_ssorted _ h.nodup
  | preset σ => exact corrAdd_ssorted _ _ _

theorem runs_ssorted (ops : List TableOp) : ∀ (b : TableBuilder),
    (∃ op ∈ ops, op.IsAdd) ∨ SSorted b.build.items →
    SSorted (ops.foldl TableOp.run b).build.items := by
  induction ops with
  | nil => intro b h; simpa using h
  | cons op ops ih =>
    intro b h
    apply ih
    by_cases ho : op.IsAdd
    · exact .inr (run_ssorted b op (.inl ho))
    · rcases h with ⟨o, ho', hadd⟩ | h
      · rcases List.mem_cons.mp ho' with rfl | ho'
        · exact absurd hadd ho
        · exact .inl ⟨o, ho', hadd⟩
      · exact .inr (run_ssorted b op (.inr h))

end Chanoma
