import Verif.Props.Config
import Verif.Spec.Consulted
/-! # C83: what a configuration depends on -/

namespace Chanoma

theorem get_congr {data data' : YValue} {name : Str}
    (h : ∀ v, HasField data name v ↔ HasField data' name v) : data.get name = data'.get name := by
  cases hd : data'.get name with
  | some v => exact get_some.mpr ((h v).mpr (get_some.mp hd))
  | none =>
    cases hd' : data.get name with
    | none => rfl
    | some v =>
      have h' := get_some.mpr ((h v).mp (get_some.mp hd'))
      rw [hd] at h'
      cases h'

/-! ## YAML -/

/-- C83: of a YAML document only the (first) entries for `items` and `modifiers` matter: documents
that agree on these two have the same outcome, be it a pipeline, an error or a panic, wherever the
files are, however they are written, and whatever other keys they contain. -/
theorem C83_yaml (σ : Oracle) (w w' : World) (path path' : OsStr)
    (hext : HasExt path (p! "yaml") ∨ HasExt path (p! "yml"))
    (hext' : HasExt path' (p! "yaml") ∨ HasExt path' (p! "yml"))
    (b b' : List UInt8) (data data' : YValue)
    (hfile : w.entry path = some (.file b)) (hyaml : w.parseYaml b = some data)
    (hfile' : w'.entry path' = some (.file b')) (hyaml' : w'.parseYaml b' = some data')
    (hsame : ∀ name ∈ [c! "items", c! "modifiers"], ∀ v,
      HasField data name v ↔ HasField data' name v) :
    Chanoma.fromConfigFile σ w path = Chanoma.fromConfigFile σ w' path' := by
  have h1 := get_congr (hsame (c! "items") (by simp))
  have h2 := get_congr (hsame (c! "modifiers") (by simp))
  have e1 : yamlItems data = yamlItems data' := by unfold yamlItems; rw [h1]
  have e2 : yamlModifiers σ data = yamlModifiers σ data' := by unfold yamlModifiers; rw [h2]
  rw [fromConfigFile_eq, fromConfigFile_eq, loadYaml_eq ⟨b, hfile, hyaml⟩ (fromPath_yaml hext),
    loadYaml_eq ⟨b', hfile', hyaml'⟩ (fromPath_yaml hext'), e1, e2]
  rfl

/-- C83: a YAML document without `items` and `modifiers`, for example one in which both are misspelt
or one that is no mapping at all, is not rejected: it loads to a pipeline that leaves every text as
it is and reports no position. -/
theorem C83_yaml_nothing (σ : Oracle) (w : World) (path : OsStr)
    (hext : HasExt path (p! "yaml") ∨ HasExt path (p! "yml")) (b : List UInt8) (data : YValue)
    (hfile : w.entry path = some (.file b)) (hyaml : w.parseYaml b = some data)
    (hitems : NoField data (c! "items")) (hmods : NoField data (c! "modifiers")) :
    ∃ c, Chanoma.fromConfigFile σ w path = .ok c ∧ ∀ σs debug text,
      c.normalize σs debug text = .ok text ∧
      ∃ r, c.normalizeWithPositions σs text = .ok r ∧ ∀ m ∈ r.records, m.positions = [] := by
  have hi : DocItems data [] := .inl ⟨hitems, rfl⟩
  have hs : DocSteps data [] := .inl ⟨hmods, rfl⟩
  obtain ⟨ms, x, h1, h2, h3⟩ := loadYaml_ok (σ := σ) ⟨b, hfile, hyaml⟩ (fromPath_yaml hext) hi
    (by intro i hi; cases hi) hs
  cases h1
  have hsub : ∀ text, substitute x.itemsMap.get? text = text := by
    intro text
    rw [h2]
    simp [substitute, itemSubst]
  have hpos : ∀ (τ : Oracle) text, x.modifyWithPositions τ text = .ok ⟨.characterConverter x, text, []⟩ := by
    intro τ text
    obtain ⟨ps, h4, h5⟩ := modifyWithPositions_eq x τ text
    have : ps = [] := by
      have hnil : ((charIndices text).zipIdx.map fun e => (e.1.2, (e.2, e.1.1))).flatMap
          (occPos x.itemsMap) = [] := by
        rw [List.flatMap_eq_nil_iff]
        intro e _
        simp [occPos, h2, itemSubst]
      rw [hnil] at h5
      exact h5.eq_nil
    rw [h4, this, hsub]
  refine ⟨⟨[.characterConverter x]⟩, by rw [fromConfigFile_eq, h3]; rfl, fun σs debug text => ⟨?_, ?_⟩⟩
  · cases debug with
    | false => simp [Chanoma.normalize, ModifierKind.modify, modify_eq, hsub]
    | true =>
      simp [Chanoma.normalize, Chanoma.normalizeWithPositions, ModifierKind.modifyWithPositions, hpos,
        ModifiedRecords.text, unwrap]
  · exact ⟨⟨[⟨.characterConverter x, text, []⟩]⟩, by
      simp [Chanoma.normalizeWithPositions, ModifierKind.modifyWithPositions, hpos], by simp⟩

/-- The hypotheses of `C83_yaml` and `C83_yaml_nothing` are met: a document with further keys, and
one in which both keys are misspelt. -/
example : (∀ name ∈ [c! "items", c! "modifiers"], ∀ v,
      HasField (.mapping [(.string (c! "version"), .number (c! "2")),
        (.string (c! "items"), .mapping [(.string (c! "A"), .string (c! "a"))]),
        (.string (c! "modifier"), .null)]) name v ↔
      HasField (.mapping [(.string (c! "items"), .mapping [(.string (c! "A"), .string (c! "a"))])])
        name v) ∧
    NoField (.mapping [(.string (c! "item"), .mapping []), (.string (c! "Modifiers"), .null)])
      (c! "items") ∧
    NoField (.sequence [.string (c! "trim")]) (c! "modifiers") ∧
    HasExt (p! "/c.yml") (p! "yml") := by
  refine ⟨?_, ?_, ?_, p! "c", ⟨p! "/", [], rfl, by decide, .nil, by decide, by decide,
    by decide, by decide⟩, by decide, by decide⟩
  · intro name hn v
    rw [← get_some, ← get_some]
    rcases List.mem_cons.mp hn with rfl | hn
    · exact Iff.rfl
    · rw [List.mem_singleton] at hn
      subst hn
      exact Iff.rfl
  · intro l h
    cases h
    simp
  · intro l h
    cases h

/-- A misspelt document loads and does nothing. -/
example : (Chanoma.fromConfigFile .insertion (.ofFiles [(p! "/c.yml", .text [])]
      (fun _ => some (.mapping [(.string (c! "modifier"), .mapping [(.string (c! "trim"), .null)])])))
      (p! "/c.yml") >>= fun c => c.normalize (fun _ => .insertion) false (c! " a ")) =
    .ok (c! " a ") := by decide +kernel

/-! ## CSV -/

/-- C83: of a CSV file only the items of the records after the first matter: the header, empty
lines, the kind of line ends, quoting and how the items are grouped into rows do not. -/
theorem C83_csv (σ : Oracle) (w w' : World) (path path' : OsStr)
    (hext : HasExt path (p! "csv")) (hext' : HasExt path' (p! "csv"))
    (b b' : List UInt8) (rows rows' : List (List Str))
    (hfile : w.entry path = some (.file b)) (hrows : CsvRows b rows)
    (hfile' : w'.entry path' = some (.file b')) (hrows' : CsvRows b' rows')
    (hsame : rows.flatMap rowItems = rows'.flatMap rowItems) :
    Chanoma.fromConfigFile σ w path = Chanoma.fromConfigFile σ w' path' := by
  rw [fromConfigFile_eq, fromConfigFile_eq, loadCsv_eq hfile hrows (fromPath_csv hext),
    loadCsv_eq hfile' hrows' (fromPath_csv hext'), hsame]
  rfl

/-- C83: a CSV file and a YAML file describing the same items and no modifiers have the same
outcome. -/
theorem C83_csv_yaml (σ : Oracle) (w w' : World) (path path' : OsStr)
    (hext : HasExt path (p! "csv"))
    (hext' : HasExt path' (p! "yaml") ∨ HasExt path' (p! "yml"))
    (b b' : List UInt8) (rows : List (List Str)) (data : YValue)
    (hfile : w.entry path = some (.file b)) (hrows : CsvRows b rows)
    (hfile' : w'.entry path' = some (.file b')) (hyaml : w'.parseYaml b' = some data)
    (hitems : DocItems data (rows.flatMap rowItems)) (hmods : DocSteps data []) :
    Chanoma.fromConfigFile σ w path = Chanoma.fromConfigFile σ w' path' := by
  obtain ⟨ms, h1, h2⟩ := docSteps_ok hmods σ
  cases h1
  rw [fromConfigFile_eq, fromConfigFile_eq, loadCsv_eq hfile hrows (fromPath_csv hext),
    loadYaml_eq ⟨b', hfile', hyaml⟩ (fromPath_yaml hext'), docItems_ok hitems, h2]
  rfl

/-- The hypotheses of `C83_csv` and `C83_csv_yaml` are met: another header, other line ends, quotes
and one row instead of two. -/
example : CsvRows (strBytes (c! "from,to\na,A\ná,A\n")) [[c! "a", c! "A"], [c! "á", c! "A"]] ∧
    CsvRows (strBytes (c! "header\r\n\r\n\"a\",á,A")) [[c! "a", c! "á", c! "A"]] ∧
    [[c! "a", c! "A"], [c! "á", c! "A"]].flatMap rowItems =
      [[c! "a", c! "á", c! "A"]].flatMap rowItems ∧
    DocItems (.mapping [(.string (c! "items"), .mapping [(.string (c! "A"),
      .sequence [.string (c! "a"), .string (c! "á")])])]) ([[c! "a", c! "á", c! "A"]].flatMap rowItems) ∧
    DocSteps (.mapping [(.string (c! "items"), .mapping [(.string (c! "A"),
      .sequence [.string (c! "a"), .string (c! "á")])])]) [] := by
  refine ⟨(C28_rows_of_text [[c! "from", c! "to"], [c! "a", c! "A"], [c! "á", c! "A"]] _ ?_).1 (by decide),
    (C28_rows_of_text [[c! "header"], [c! "a", c! "á", c! "A"]] _ ?_).1 (by decide), by decide +kernel,
    .inr ⟨_, ⟨[], [], rfl, by simp⟩, .cons (.many (c! "A") [c! "a", c! "á"]) .nil⟩,
    .inl ⟨by intro l h; cases h; simp, rfl⟩⟩
  · exact .record (x := c! "from,to") (e := ['\n'])
      (.cons (x := c! "from") (.bare (by decide) (by decide)) (.one (.bare (by decide) (by decide))))
      (by decide) (by decide) (.record (x := c! "a,A") (e := ['\n'])
        (.cons (x := c! "a") (.bare (by decide) (by decide)) (.one (.bare (by decide) (by decide))))
        (by decide) (by decide) (.record (x := c! "á,A") (e := ['\n'])
          (.cons (x := c! "á") (.bare (by decide) (by decide)) (.one (.bare (by decide) (by decide))))
          (by decide) (by decide) .nil))
  · exact .record (x := c! "header") (e := ['\r', '\n']) (.one (.bare (by decide) (by decide)))
      (by decide) (by decide) (.empty (e := ['\r', '\n']) (by decide)
        (.last (.cons (x := c! "\"a\"") (.quoted (c! "a") (g := []) (by decide) (by decide))
          (.cons (x := c! "á") (.bare (by decide) (by decide)) (.closed (.one (.bare (by decide) (by decide))))))
          (by decide)))

/-! ## The search for rc files -/

/-- C83: `load_rc` depends on nothing but `CHANOMARC`, the home directory, the current directory and
the files they determine. -/
theorem C83_rc (σ : Oracle) (w w' : World) (henv : w.chanomarc = w'.chanomarc)
    (hh : w.home = w'.home) (hd : w.cwd = w'.cwd) (hparse : w.parseYaml = w'.parseYaml)
    (hfiles : ∀ p, Consulted w p → w.entry p = w'.entry p) :
    Chanoma.loadRc σ w = Chanoma.loadRc σ w' := by
  by_cases hs : ChanomarcSet w
  · obtain ⟨p, h1, h2⟩ := id hs
    exact C37_chanomarc_precedence σ w w' p h1 (henv ▸ h1) h2 (hfiles p (.inl ⟨hs, h1⟩)) hparse
  · have hs' : ¬ ChanomarcSet w' := by unfold ChanomarcSet at *; rw [← henv]; exact hs
    have hc : rcCandidates w = rcCandidates w' := by unfold rcCandidates; rw [hh, hd]
    have he : ∀ p ∈ rcCandidates w', w.entry p = w'.entry p :=
      fun p hp => hfiles p (.inr ⟨hs, hc ▸ hp⟩)
    rw [loadRc_search hs, loadRc_search hs', hc]
    have hf : (rcCandidates w').filter w.isFile = (rcCandidates w').filter w'.isFile := by
      apply List.filter_congr
      intro p hp
      unfold World.isFile; rw [he p hp]
    rw [hf]
    have hm : ∀ l : List OsStr, (∀ p ∈ l, w.entry p = w'.entry p) →
        l.mapM (Configuration.loadFileWithExt σ w) = l.mapM (Configuration.loadFileWithExt σ w') := by
      intro l hl
      induction l with
      | nil => rfl
      | cons p l ih =>
        rw [List.mapM_cons, List.mapM_cons, loadFile_local (hl p (by simp)) hparse,
          ih fun p hp => hl p (by simp [hp])]
    rw [hm _ fun p hp => he p ((List.mem_filter.mp hp).1)]

/-- The hypotheses of `C83_rc` are met by different environments: one has a file in a place that is
not consulted. -/
example : ∃ w w' : World, w.home = some (p! "/home/u") ∧ w.chanomarc = w'.chanomarc ∧
    w.home = w'.home ∧ w.cwd = w'.cwd ∧ w.parseYaml = w'.parseYaml ∧
    (∀ p, Consulted w p → w.entry p = w'.entry p) ∧
    (∃ p, Consulted w p ∧ w.entry p ≠ none) ∧ ∃ p, w.entry p ≠ w'.entry p := by
  refine ⟨.ofFiles [(p! "/home/u/.chanomarc.csv", .text (c! "from,to\na,A\n"))],
    .ofFiles [(p! "/home/u/.chanomarc.csv", .text (c! "from,to\na,A\n")), (p! "/etc/chanomarc.csv", .denied)],
    rfl, rfl, rfl, rfl, rfl, ?_, ⟨p! "/home/u/.chanomarc.csv", .inr ⟨?_, by decide⟩, by decide +kernel⟩,
    p! "/etc/chanomarc.csv", by decide +kernel⟩
  · rintro p (⟨-, h⟩ | ⟨-, h⟩)
    · cases h
    · revert p
      decide +kernel
  · rintro ⟨v, h, -⟩
    cases h

end Chanoma
