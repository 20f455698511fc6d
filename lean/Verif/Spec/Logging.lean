import Verif.Model.Logging
import Verif.Spec.Path
/-! # What a log is expected to show -/

namespace Chanoma

/-- The file named by `CHANOMARC` can be used: it is a file, and its extension is csv or yaml. -/
def UsableRc (w : World) (p : OsStr) : Prop :=
  IsFile w p ∧ (HasExt p (p! "csv") ∨ HasExt p (p! "yaml"))

open scoped Classical in
/-- What is logged while the rc files are looked for: the value of `CHANOMARC`, if it is set, and
whether something of this name exists; then the files that are going to be loaded, unless the file named
by `CHANOMARC` cannot be used. -/
inductive SearchLogged (w : World) : List LogEvent → Prop
  | searched : ¬ ChanomarcSet w →
      SearchLogged w [.loadFiles ((rcCandidates w).filter fun p => decide (IsFile w p))]
  | usable {p} : w.chanomarc = some p → IsUtf8 p → UsableRc w p →
      SearchLogged w [.chanomarc p true, .loadFiles [p]]
  | unusable {p} : w.chanomarc = some p → IsUtf8 p → ¬ UsableRc w p → w.entry p ≠ none →
      SearchLogged w [.chanomarc p true]
  | absent {p} : w.chanomarc = some p → IsUtf8 p → w.entry p = none →
      SearchLogged w [.chanomarc p false]

/-- `StepRecords ms σs i text rs`: `rs` are the records of the modifiers `ms`, each made from the text
the previous one has made, the first one from `text`; `i` is the number of modifiers before. -/
inductive StepRecords (σs : Nat → Oracle) : List ModifierKind → Nat → Str → List ModifiedRecord → Prop
  | done {i text} : StepRecords σs [] i text []
  | step {m ms i text r rs} : m.modifyWithPositions (σs i) text = .ok r →
      StepRecords σs ms (i + 1) r.text rs → StepRecords σs (m :: ms) i text (r :: rs)

/-- The modifiers of the program: those of the rc files, the preset if asked for, neologdn if asked
for. -/
inductive ProgramModifiers (σ : Oracle) (w : World) (opts : CliOpts) : List ModifierKind → Prop
  | mk {c p n : Chanoma} : Chanoma.loadRc σ w = .ok c → Chanoma.preset σ = .ok p →
      Chanoma.neologdn σ = .ok n → ProgramModifiers σ w opts (c.modifiers ++
        (if opts.preset then p.modifiers else []) ++ (if opts.neologdn then n.modifiers else []))

end Chanoma
