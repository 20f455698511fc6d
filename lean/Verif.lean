import Verif.Model.Changing
import Verif.Model.Chanoma
import Verif.Model.CharactersSet
import Verif.Model.Cli
import Verif.Model.CommandLine
import Verif.Model.Configuration
import Verif.Model.Corr
import Verif.Model.Csv
import Verif.Model.Equality
import Verif.Model.Error
import Verif.Model.ExampleTable
import Verif.Model.File
import Verif.Model.Logging
import Verif.Model.Macros
import Verif.Model.Modifier
import Verif.Model.OutputLine
import Verif.Model.Parse
import Verif.Model.Position
import Verif.Model.Rust
import Verif.Model.Session
import Verif.Model.Table
import Verif.Model.Yaml
import Verif.Proofs.Config
import Verif.Proofs.Contained
import Verif.Proofs.Context
import Verif.Proofs.Converter
import Verif.Proofs.Corr
import Verif.Proofs.Csv
import Verif.Proofs.Cut
import Verif.Proofs.File
import Verif.Proofs.ItemMap
import Verif.Proofs.Ligature
import Verif.Proofs.Machine
import Verif.Proofs.Modifiers
import Verif.Proofs.Neologdn
import Verif.Proofs.Order
import Verif.Proofs.Parse
import Verif.Proofs.Path
import Verif.Proofs.Pipeline
import Verif.Proofs.Positions
import Verif.Proofs.Preset
import Verif.Proofs.Swap
import Verif.Proofs.SwapNeologdn
import Verif.Proofs.Text
import Verif.Proofs.Utf8
import Verif.Proofs.Width
import Verif.Props.Again
import Verif.Props.Anagram
import Verif.Props.Ascii
import Verif.Props.Backwards
import Verif.Props.Bounds
import Verif.Props.Builder
import Verif.Props.Chain
import Verif.Props.Changing
import Verif.Props.Cjk
import Verif.Props.Cli
import Verif.Props.CommandLine
import Verif.Props.Commute
import Verif.Props.Compare
import Verif.Props.Config
import Verif.Props.Conflicts
import Verif.Props.Conformance
import Verif.Props.Contained
import Verif.Props.Context
import Verif.Props.Conversion
import Verif.Props.Csv
import Verif.Props.Cut
import Verif.Props.Depends
import Verif.Props.Determinism
import Verif.Props.Display
import Verif.Props.Done
import Verif.Props.Edits
import Verif.Props.Equality
import Verif.Props.Errors
import Verif.Props.ExampleTable
import Verif.Props.Finite
import Verif.Props.Formats
import Verif.Props.Found
import Verif.Props.Frame
import Verif.Props.Front
import Verif.Props.Growth
import Verif.Props.History
import Verif.Props.Home
import Verif.Props.Honoured
import Verif.Props.Idle
import Verif.Props.IdleRule
import Verif.Props.JoinedPositions
import Verif.Props.Kinds
import Verif.Props.Ligature
import Verif.Props.LigatureExact
import Verif.Props.Lines
import Verif.Props.Local
import Verif.Props.Logging
import Verif.Props.Marks
import Verif.Props.Neologdn
import Verif.Props.Notation
import Verif.Props.OneFile
import Verif.Props.OneRow
import Verif.Props.Output
import Verif.Props.OutputLine
import Verif.Props.Parse
import Verif.Props.ParseOutcome
import Verif.Props.Pipe
import Verif.Props.Pipeline
import Verif.Props.PositionOrder
import Verif.Props.Positions
import Verif.Props.Readings
import Verif.Props.Rename
import Verif.Props.RenamePositions
import Verif.Props.Reported
import Verif.Props.Rest
import Verif.Props.Restore
import Verif.Props.Reversible
import Verif.Props.SameFile
import Verif.Props.Saved
import Verif.Props.Session
import Verif.Props.Sets
import Verif.Props.Settled
import Verif.Props.Shorten
import Verif.Props.Sorted
import Verif.Props.Sources
import Verif.Props.Swap
import Verif.Props.SwapNeologdn
import Verif.Props.Tables
import Verif.Props.Text
import Verif.Props.Typing
import Verif.Props.Undo
import Verif.Props.Units
import Verif.Props.Weights
import Verif.Spec.Again
import Verif.Spec.Changing
import Verif.Spec.Cjk
import Verif.Spec.CommandLine
import Verif.Spec.Config
import Verif.Spec.Consulted
import Verif.Spec.Contained
import Verif.Spec.Context
import Verif.Spec.Convert
import Verif.Spec.Csv
import Verif.Spec.Cut
import Verif.Spec.Display
import Verif.Spec.Done
import Verif.Spec.Edits
import Verif.Spec.Equality
import Verif.Spec.ExampleTable
import Verif.Spec.Export
import Verif.Spec.Files
import Verif.Spec.Frame
import Verif.Spec.Growth
import Verif.Spec.History
import Verif.Spec.Idle
import Verif.Spec.IdleRule
import Verif.Spec.JoinedPositions
import Verif.Spec.Kinds
import Verif.Spec.Ligature
import Verif.Spec.Lines
import Verif.Spec.Local
import Verif.Spec.Logging
import Verif.Spec.Memory
import Verif.Spec.Notation
import Verif.Spec.OneFile
import Verif.Spec.Order
import Verif.Spec.OutputLine
import Verif.Spec.Parse
import Verif.Spec.Path
import Verif.Spec.Pipe
import Verif.Spec.Pipeline
import Verif.Spec.Positions
import Verif.Spec.Readings
import Verif.Spec.Rename
import Verif.Spec.Rest
import Verif.Spec.Restore
import Verif.Spec.SameFile
import Verif.Spec.Sets
import Verif.Spec.Settled
import Verif.Spec.Shorten
import Verif.Spec.Sources
import Verif.Spec.Swap
import Verif.Spec.SwapNeologdn
import Verif.Spec.TableOps
import Verif.Spec.Text
import Verif.Spec.Typing
import Verif.Spec.Weights
import Verif.Spec.Width
