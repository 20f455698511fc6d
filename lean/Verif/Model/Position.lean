import Verif.Model.Rust
/-! # `src/position.rs` -/

namespace Chanoma

/-- `/repo/src/position.rs:6-14`, struct `Position`. -/
structure Position where
  «from» : Str
  to : Str
  index : Nat
  length : Nat
  utf8Index : Nat
  utf8Length : Nat
  deriving DecidableEq, Repr

/-- `/repo/src/position.rs:17-33`, `Position::new` — note the argument order
`index, utf8_index, length, utf8_length`. -/
def Position.new («from» to : Str) (index utf8Index length utf8Length : Nat) : Position :=
  { «from», to, index, utf8Index, length, utf8Length }

/-- `/repo/src/position.rs:36-40`, `PartialEq::eq`: only the index is compared. -/
def Position.eq (a b : Position) : Bool := a.index == b.index

/-- `/repo/src/position.rs:42-52`, `Ord::cmp` / `PartialOrd::partial_cmp`. -/
def Position.cmp (a b : Position) : Ordering := compare a.index b.index

end Chanoma
