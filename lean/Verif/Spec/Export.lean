import Verif.Spec.Csv
import Verif.Model.Yaml
import Verif.Spec.Order
/-! # Specification: exported correspondences -/

namespace Chanoma

/-- `Groups items groups`: the targets of the items, each once and in increasing order, with their
sources in the order of the items. -/
def Groups (items : List Item) (groups : List (Str × List Str)) : Prop :=
  groups.Pairwise (fun a b => LexLe a.1 b.1 ∧ a.1 ≠ b.1) ∧
  (∀ i ∈ items, ∃ g ∈ groups, g.1 = i.to) ∧
  ∀ g ∈ groups, g.2 ≠ [] ∧ g.2 = (items.filter fun i => i.to = g.1).map (·.from)

/-- A cell of a CSV file, in quotes only if this is necessary. -/
def cellText (f : Str) : Str :=
  if ∃ c ∈ f, c = ',' ∨ c = '"' ∨ c = '\r' ∨ c = '\n' then '"' :: doubleQuotes f ++ ['"'] else f

/-- Cells separated by commas. -/
def cellsText : List Str → Str
  | [] => []
  | [f] => cellText f
  | f :: r => cellText f ++ ',' :: cellsText r

/-- One line per group: the sources, then the target. -/
def groupsCsv (groups : List (Str × List Str)) : Str :=
  groups.flatMap fun g => cellsText (g.2 ++ [g.1]) ++ ['\n']

/-- The YAML document `items: {target: [source, …], …}`. -/
def groupsYaml (groups : List (Str × List Str)) : YValue :=
  .mapping [(.string (c! "items"),
    .mapping (groups.map fun g => (.string g.1, .sequence (g.2.map .string))))]

example : Groups [⟨c! "b", c! "B"⟩, ⟨c! "a", c! "A"⟩, ⟨c! "a", c! "B"⟩]
    [(c! "A", [c! "a"]), (c! "B", [c! "b", c! "a"])] := by
  refine ⟨?_, by decide +kernel, by decide +kernel⟩
  simp only [List.pairwise_cons, List.mem_cons, List.not_mem_nil, or_false, forall_eq,
    false_imp_iff, implies_true, List.Pairwise.nil, and_true]
  exact ⟨.lt _ _ (by decide), by decide⟩

example : groupsCsv [(c! "A,", [c! "a", c! "say \"b\""]), (c! "B", [[]])] =
    c! "a,\"say \"\"b\"\"\",\"A,\"\n,B\n" := by decide +kernel

end Chanoma
