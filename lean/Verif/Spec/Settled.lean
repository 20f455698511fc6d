import Verif.Spec.Ligature
import Verif.Spec.Convert
/-! # Specifications: texts with nothing left to do, merged tables, undoing substitutions -/

namespace Chanoma

/-- Nothing is left for neologdn to do, apart from runs of `ー`: no character is folded or deleted,
every space stands between two ASCII alphanumerics, and no kana is followed by a mark to compose. -/
def Settled (t : Str) : Prop :=
  (∀ ch ∈ t, neologdnFold ch = ch ∧ ch ∉ tildeChars) ∧ SpacesOk t ∧
  ∀ u a m v, t = u ++ a :: m :: v → voiced a m = none

/-- One table doing the work of the table `t` followed by the table `t'`: the items of `t'`, and
after them (so that they win) those of `t` with their targets changed as `t'` says. -/
def mergedItems (t t' : List Item) : List Item :=
  t' ++ t.map fun i => ⟨i.from, substitute (itemSubst t') i.to⟩

/-- Write the first character of each position's `from` back at its character index. -/
def undo (ps : List Position) (text : Str) : Str :=
  ps.foldl (fun t p => match p.from with | a :: _ => t.set p.index a | [] => t) text

end Chanoma
