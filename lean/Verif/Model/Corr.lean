import Verif.Model.Rust
/-!
# `src/corr.rs`, `src/corr/*.rs`: correspondences between strings

A value of a type implementing `Corr` is observed only through `items()`, so every
`T: Corr` and every `Correspondence<T>` is modelled by its list of items.  (Assumed:
`items()` of a user-defined `Corr` is a pure function.)
-/

namespace Chanoma

/-- `/repo/src/corr/item.rs:3-10`, struct `Item`. -/
structure Item where
  «from» : Str
  to : Str
  deriving DecidableEq, Repr

/-- `/repo/src/corr/item.rs:4`, `derive(PartialOrd, Ord)`: lexicographic on
`(from, to)`, each compared as UTF-8 bytes. -/
def Item.le (a b : Item) : Bool :=
  if a.from = b.from then strLe a.to b.to else strLe a.from b.from

/-- One step of the sort below. -/
def insertItem (a : Item) : List Item → List Item
  | [] => [a]
  | b :: l => if a.le b then a :: b :: l else b :: insertItem a l

/-- `Vec<Item>::sort()` (used at `/repo/src/corr.rs:161,179,199,216`).  Simplification:
insertion sort instead of Rust's merge sort; every correct sort returns this list
(theorem `sortItems_unique`). -/
def sortItems : List Item → List Item
  | [] => []
  | a :: l => insertItem a (sortItems l)

/-- `/repo/src/corr/linear.rs:9-13`, `CharacterToCharacter::items`. -/
def linearItems («from» to : Str) : List Item := [⟨«from», to⟩]

/-- `/repo/src/corr/unification.rs:8-15`, `NCharactersToCharacter::items`. -/
def unificationItems (froms : List Str) (to : Str) : List Item := froms.map fun f => ⟨f, to⟩

/-- `/repo/src/corr.rs:145-164`, `Add::add`: collect both item lists into a `HashSet`,
drain it in hash order, sort. -/
def corrAdd (σ : Oracle) (a b : List Item) : List Item :=
  sortItems (σ.iter (b.foldl hsetInsert (a.foldl hsetInsert [])))

/-- `/repo/src/corr.rs:166-182`, `AddAssign::add_assign`: the items `a` has afterwards. -/
def corrAddAssign (σ : Oracle) (a b : List Item) : List Item :=
  sortItems (σ.iter (b.foldl hsetInsert (a.foldl hsetInsert [])))

/-- `/repo/src/corr.rs:184-202`, `Sub::sub`. -/
def corrSub (a b : List Item) : List Item :=
  sortItems (a.foldl (fun items item => if b.contains item then items else items ++ [item]) [])

/-- `/repo/src/corr.rs:204-219`, `SubAssign::sub_assign`: the items `a` has afterwards. -/
def corrSubAssign (a b : List Item) : List Item :=
  sortItems (a.foldl (fun items item => if b.contains item then items else items ++ [item]) [])

/-- `/repo/src/corr.rs:135-142`, `PartialEq for Correspondence`: equality of item vectors. -/
def corrEq (a b : List Item) : Bool := a == b

/-- `BTreeMap::entry(k).or_insert_with(Vec::new).push(v)` on a map sorted by key. -/
def btreePush (m : List (Str × List Str)) (k : Str) (v : Str) : List (Str × List Str) :=
  match m with
  | [] => [(k, [v])]
  | (k', vs) :: rest =>
    if k = k' then (k', vs ++ [v]) :: rest
    else if strLe k k' then (k, [v]) :: (k', vs) :: rest
    else (k', vs) :: btreePush rest k v

/-- `/repo/src/corr.rs:68-75`, `Synthesized::item_map`. -/
def itemMap (items : List Item) : List (Str × List Str) :=
  items.foldl (fun m item => btreePush m item.to item.from) []

end Chanoma
