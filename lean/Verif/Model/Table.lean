import Verif.Model.Corr
import Verif.Model.CharactersSet
/-! # `src/table.rs` (file imports are in `Verif/Model/File.lean`) -/

namespace Chanoma

/-- `/repo/src/table.rs:10-17`, enum `Origin`. -/
inductive Origin where
  | new
  | configurationFile (path : OsStr)
  deriving DecidableEq, Repr

/-- `/repo/src/table.rs:19-26`, struct `Table`. -/
structure Table where
  corr : List Item
  origin : Origin
  deriving DecidableEq, Repr

/-- `/repo/src/table.rs:42-47`, `Table::new`. -/
def Table.new : Table := ⟨[], .new⟩

/-- `/repo/src/table.rs:68-70`, `Table::from_corr`. -/
def Table.fromCorr (corr : List Item) (origin : Origin) : Table := ⟨corr, origin⟩

/-- `/repo/src/table.rs:81-83`, `Table::add`. -/
def Table.add (σ : Oracle) (t : Table) (corr : List Item) : Table :=
  { t with corr := corrAddAssign σ t.corr corr }

/-- `/repo/src/table.rs:94-96`, `Table::remove`. -/
def Table.remove (t : Table) (corr : List Item) : Table :=
  { t with corr := corrSubAssign t.corr corr }

/-- `/repo/src/table.rs:118-120`, `Table::items`. -/
def Table.items (t : Table) : List Item := t.corr

/-- `/repo/src/table.rs:124-126`, struct `TableBuilder`. -/
structure TableBuilder where
  table : Table
  deriving DecidableEq, Repr

/-- `/repo/src/table.rs:142-146`, `TableBuilder::new`. -/
def TableBuilder.new : TableBuilder := ⟨Table.new⟩

/-- `/repo/src/table.rs:56-58` `Table::builder`, `/repo/src/table.rs:156-158`
`TableBuilder::from_table`. -/
def TableBuilder.fromTable (t : Table) : TableBuilder := ⟨t⟩

/-- `/repo/src/table.rs:167-170`, `TableBuilder::preset`. -/
def TableBuilder.preset (σ : Oracle) (b : TableBuilder) : TableBuilder :=
  ⟨b.table.add σ (allItems σ)⟩

/-- `/repo/src/table.rs:180-183`, `TableBuilder::add_corr`. -/
def TableBuilder.addCorr (σ : Oracle) (b : TableBuilder) (corr : List Item) : TableBuilder :=
  ⟨b.table.add σ corr⟩

/-- `/repo/src/table.rs:193-196`, `TableBuilder::remove_corr`. -/
def TableBuilder.removeCorr (b : TableBuilder) (corr : List Item) : TableBuilder :=
  ⟨b.table.remove corr⟩

/-- `/repo/src/table.rs:210-212`, `TableBuilder::build`. -/
def TableBuilder.build (b : TableBuilder) : Table := b.table

end Chanoma
