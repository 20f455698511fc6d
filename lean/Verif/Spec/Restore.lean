import Verif.Spec.Settled
/-! # Specification: getting the input back from a result and the reported positions -/

namespace Chanoma

/-- Replace the occurrences of `c`, from left to right, by the `from` of the positions. -/
def spreadRuns (c : Char) : List Position → Str → Str
  | p :: ps, a :: t => if a = c then p.from ++ spreadRuns c ps t else a :: spreadRuns c (p :: ps) t
  | _, t => t

/-- Undo one modifier: put back substituted characters at their places, trimmed spaces at the
beginning (index 0) or at the end, and the runs in their order.  The text in the record is not
used. -/
def restore (r : ModifiedRecord) (text : Str) : Str :=
  match r.kind with
  | .characterConverter _ => undo r.positions text
  | .consecutiveCharacterReducer x => spreadRuns x.c r.positions text
  | .trim => r.positions.foldr (fun p t => if p.index = 0 then p.from ++ t else t ++ p.from) text
  | _ => text

/-- A converter, a reducer or trim. -/
def ModifierKind.Reports : ModifierKind → Prop
  | .characterConverter _ | .consecutiveCharacterReducer _ | .trim => True
  | _ => False

end Chanoma
