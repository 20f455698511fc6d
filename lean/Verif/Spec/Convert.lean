import Verif.Model.Chanoma
/-! # Specification: per-character substitution by a table -/

namespace Chanoma

/-- Replace every character `c` with `f c = some d` by `d`, keep the others. -/
def substitute (f : Char → Option Char) (text : Str) : Str := text.map fun c => (f c).getD c

/-- The substitution described by a list of items: the first character of the `to` of the last
listed item whose `from` starts with `c`. -/
def itemSubst (items : List Item) (c : Char) : Option Char :=
  match items.reverse.find? fun i => i.from.head? = some c with
  | some i => i.to.head?
  | none => none

/-- All items have a first character on both sides. -/
def CellsNonEmpty (items : List Item) : Prop := ∀ i ∈ items, i.from ≠ [] ∧ i.to ≠ []

instance (items : List Item) : Decidable (CellsNonEmpty items) :=
  inferInstanceAs (Decidable (∀ i ∈ items, i.from ≠ [] ∧ i.to ≠ []))

/-- The position of one substituted character: `input = pre ++ c :: post`, `c` becomes `d`.
`index` counts characters, `utf8_index` and `length` count bytes. -/
def substPosition (pre : Str) (c d : Char) : Position :=
  { «from» := [c], to := [d], index := pre.length, length := c.utf8Size,
    utf8Index := strLen pre, utf8Length := 1 }

end Chanoma
