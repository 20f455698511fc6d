import Verif.Props.CommandLine
import Verif.Spec.Logging
/-! # C87: the log, standard output and exit status of a run -/

namespace Chanoma

open Logged

theorem Logged.result_bind {α β : Type} (x : Logged α) (f : α → Logged β) :
    (x >>= f).result = (x.result >>= fun a => (f a).result) := by
  show (andThen x f).result = _
  unfold andThen
  cases x.result <;> rfl

theorem Logged.log_bind {α β : Type} (x : Logged α) (f : α → Logged β) :
    (x >>= f).log = x.log ++ match x.result with
      | .ok a => (f a).log
      | _ => [] := by
  show (andThen x f).log = _
  unfold andThen
  cases x.result <;> simp

theorem Logged.log_bind_quiet {α β : Type} (x : Logged α) (f : α → Logged β) (h : ∀ a, (f a).log = []) :
    (x >>= f).log = x.log := by
  rw [log_bind]
  cases x.result <;> simp [h]

theorem Logged.result_foldlM {α β : Type} (f : β → α → Logged β) (g : β → α → Outcome β)
    (h : ∀ b a, (f b a).result = g b a) (l : List α) (b : β) :
    (l.foldlM f b).result = l.foldlM g b := by
  induction l generalizing b with
  | nil => rfl
  | cons a l ih =>
    rw [List.foldlM_cons, List.foldlM_cons, result_bind, h]
    congr 1
    funext b
    exact ih b

theorem filePathsLogged_result (debug : Bool) (w : World) :
    (Configuration.filePathsLogged debug w).result = Configuration.filePaths w := by
  unfold Configuration.filePathsLogged Configuration.filePaths
  cases Configuration.filePathFromEnv w <;> rfl

theorem loadRcLogged_result (σ : Oracle) (debug : Bool) (w : World) :
    (Chanoma.loadRcLogged σ debug w).result = Chanoma.loadRc σ w := by
  unfold Chanoma.loadRcLogged Chanoma.loadRc Configuration.loadLogged Configuration.load
  rw [result_bind, result_bind, filePathsLogged_result]
  congr 1
  cases Configuration.filePaths w with
  | err e => rfl
  | panic => rfl
  | ok paths =>
    show _ = (if paths.isEmpty then _ else _)
    simp only [Outcome.ok_bind]
    rw [result_bind]
    show (ite _ _ _ : Logged _).result = _
    split
    · rfl
    · rw [result_bind]; rfl

theorem normalizeWithPositionsLogged_result (c : Chanoma) (σs : Nat → Oracle) (debug : Bool) (text : Str) :
    (c.normalizeWithPositionsLogged σs debug text).result = c.normalizeWithPositions σs text := by
  unfold Chanoma.normalizeWithPositionsLogged Chanoma.normalizeWithPositions
  rw [result_bind, result_foldlM]
  · rfl
  · intro st m
    rw [result_bind]
    rfl

theorem normalizeLogged_result (c : Chanoma) (σs : Nat → Oracle) (debug : Bool) (text : Str) :
    (c.normalizeLogged σs debug text).result = c.normalize σs debug text := by
  unfold Chanoma.normalizeLogged Chanoma.normalize
  split
  · rfl
  · rw [result_bind, normalizeWithPositionsLogged_result]
    rfl

theorem cliLoadLogged_eq (σ : Oracle) (debug : Bool) (w : World) :
    (cliLoadLogged σ debug w).log = (Chanoma.loadRcLogged σ debug w).log ∧
    (∀ c, Chanoma.loadRc σ w = .ok c → (cliLoadLogged σ debug w).result = .ok c) ∧
    ((¬ ∃ c, Chanoma.loadRc σ w = .ok c) → (cliLoadLogged σ debug w).result = .panic) := by
  unfold cliLoadLogged
  simp only [loadRcLogged_result]
  cases Chanoma.loadRc σ w with
  | ok c => exact ⟨rfl, fun _ h => h, fun h => absurd ⟨c, rfl⟩ h⟩
  | err e => exact ⟨rfl, fun _ h => (by cases h), fun _ => rfl⟩
  | panic => exact ⟨rfl, fun _ h => (by cases h), fun _ => rfl⟩

theorem cliPipeline_eq (σ : Oracle) (opts : CliOpts) (c : Chanoma) :
    cliPipeline σ opts c = (cliCalls σ opts).foldlM Call.run c := by
  have e : ∀ x : Outcome Chanoma, (x >>= fun a => .ok a) = x := by intro x; cases x <;> rfl
  unfold cliPipeline cliCalls
  by_cases hp : opts.preset <;> by_cases hn : opts.neologdn <;> simp [hp, hn, Call.run, e]

theorem cliMainLogged_result (σ : Oracle) (σs : Nat → Oracle) (w : World) (opts : CliOpts)
    (stdin : Except Str (List UInt8)) :
    (cliMainLogged σ σs w opts stdin).result = cliMain σ σs w opts stdin := by
  obtain ⟨-, h1, h2⟩ := cliLoadLogged_eq σ opts.debug w
  unfold cliMainLogged
  rw [result_bind]
  by_cases h : ∃ c, Chanoma.loadRc σ w = .ok c
  · obtain ⟨c, hc⟩ := h
    obtain ⟨c', h3, h4⟩ := cliMain_run σs opts stdin hc
    rw [h1 c hc, h4, Outcome.ok_bind, result_bind, cliPipeline_eq, h3]
    show (cliPrintLogged σs opts stdin c').result = _
    unfold cliPrintLogged
    cases opts.input with
    | some input => simp only [result_bind, normalizeLogged_result]; rfl
    | none =>
      cases readLine stdin with
      | ok line => simp only [result_bind, normalizeLogged_result]; rfl
      | error msg => rfl
  · rw [h2 h, (C45_failures σ σs w opts stdin).1 h]
    rfl

/-- C87: logging does not change what is done: without the log these are the functions of the other
properties. -/
theorem C87_same_results (σ : Oracle) (σs : Nat → Oracle) (debug : Bool) (w : World) (c : Chanoma)
    (text : Str) (opts : CliOpts) (stdin : Except Str (List UInt8)) :
    (Chanoma.loadRcLogged σ debug w).result = Chanoma.loadRc σ w ∧
    (c.normalizeWithPositionsLogged σs debug text).result = c.normalizeWithPositions σs text ∧
    (c.normalizeLogged σs debug text).result = c.normalize σs debug text ∧
    (cliMainLogged σ σs w opts stdin).result = cliMain σ σs w opts stdin :=
  ⟨loadRcLogged_result .., normalizeWithPositionsLogged_result .., normalizeLogged_result ..,
    cliMainLogged_result ..⟩

/-! ## What is logged -/

theorem stepRecords_of {σs : Nat → Oracle} : ∀ {ms : List ModifierKind}, (∀ m ∈ ms, m.WF) →
    ∀ (i : Nat) (text : Str) (acc : List ModifiedRecord), ∃ rs, StepRecords σs ms i text rs ∧
      (ms.zipIdx i).foldlM
        (fun (st : List ModifiedRecord × Str) (m : ModifierKind × Nat) => do
          let result ← quiet (m.1.modifyWithPositions (σs m.2) st.2)
          emit true (.record result)
          return (st.1 ++ [result], result.text)) (acc, text) =
        (⟨rs.map .record, .ok (acc ++ rs, lastText text rs)⟩ : Logged _)
  | [], _, i, text, acc => ⟨[], .done, by simp [lastText]; rfl⟩
  | m :: ms, h, i, text, acc => by
    obtain ⟨o, ps, h1, h2⟩ := wf_agree m (h m (by simp)) (σs i) text
    obtain ⟨rs, h3, h4⟩ := stepRecords_of (σs := σs) (ms := ms) (fun m hm => h m (by simp [hm])) (i + 1) o
      (acc ++ [⟨m, o, ps⟩])
    refine ⟨⟨m, o, ps⟩ :: rs, .step h2 h3, ?_⟩
    rw [List.zipIdx_cons, List.foldlM_cons, lastText_cons]
    show andThen _ _ = _
    simp only [h2]
    show andThen (⟨[.record ⟨m, o, ps⟩], .ok (acc ++ [⟨m, o, ps⟩], o)⟩ : Logged _) _ = _
    simp only [andThen, h4]
    simp

/-- C87: with debug logging, `normalize` and `normalize_with_positions` log one record per modifier, in
order, each made from the text the previous modifier has made; these are the records
`normalize_with_positions` returns. -/
theorem C87_records (c : Chanoma) (hc : ApiBuilt c) (σs : Nat → Oracle) (text : Str) :
    ∃ rs, StepRecords σs c.modifiers 0 text rs ∧
      (c.normalizeLogged σs true text).log = rs.map .record ∧
      (c.normalizeWithPositionsLogged σs true text).log = rs.map .record ∧
      c.normalizeWithPositions σs text = .ok ⟨rs⟩ := by
  obtain ⟨rs, h1, h2⟩ := stepRecords_of (σs := σs) (apiBuilt_wf hc) 0 text []
  have h3 : c.normalizeWithPositionsLogged σs true text = ⟨rs.map .record, .ok ⟨rs⟩⟩ := by
    unfold Chanoma.normalizeWithPositionsLogged
    rw [h2]
    show andThen _ _ = _
    simp [andThen, pure, quiet]
  refine ⟨rs, h1, ?_, by rw [h3], ?_⟩
  · unfold Chanoma.normalizeLogged
    simp only [Bool.not_true, Bool.false_eq_true, if_false, h3]
    show (andThen _ _).log = _
    simp [andThen, quiet]
  · rw [← normalizeWithPositionsLogged_result c σs true text, h3]

theorem stepRecords_texts {σs : Nat → Oracle} {ms : List ModifierKind} {i : Nat} {text : Str}
    {rs : List ModifiedRecord} (h : StepRecords σs ms i text rs) (hwf : ∀ m ∈ ms, m.WF) :
    rs.length = ms.length ∧ ∀ j, j < ms.length → ∃ r, rs[j]? = some r ∧ ms[j]? = some r.kind ∧
      ((ms.take (j + 1)).zipIdx i).foldlM (fun acc m => m.1.modify (σs m.2) acc) text = .ok r.text := by
  induction h with
  | done => exact ⟨rfl, fun j hj => by simp at hj⟩
  | @step m ms i text r rs hr hs ih =>
    obtain ⟨o, ps, h1, h2⟩ := wf_agree m (hwf m (by simp)) (σs i) text
    rw [hr] at h2; cases h2
    obtain ⟨h3, h4⟩ := ih (fun m hm => hwf m (by simp [hm]))
    refine ⟨by simp [h3], fun j hj => ?_⟩
    cases j with
    | zero => exact ⟨_, rfl, rfl, by simp [h1]⟩
    | succ j =>
      obtain ⟨r, h5, h6, h7⟩ := h4 j (by simpa using hj)
      refine ⟨r, by simpa using h5, by simpa using h6, ?_⟩
      rw [List.take_succ_cons, List.zipIdx_cons, List.foldlM_cons]
      simp only [h1, Outcome.ok_bind]
      exact h7

/-- C87: the record of a modifier names it and shows the text made by the pipeline up to it. -/
theorem C87_record_texts (c : Chanoma) (hc : ApiBuilt c) (σs : Nat → Oracle) (text : Str)
    (rs : List ModifiedRecord) (h : StepRecords σs c.modifiers 0 text rs) :
    rs.length = c.modifiers.length ∧
    ∀ j, j < c.modifiers.length → ∃ r, rs[j]? = some r ∧ c.modifiers[j]? = some r.kind ∧
      (Chanoma.mk (c.modifiers.take (j + 1))).normalize σs false text = .ok r.text :=
  stepRecords_texts h (apiBuilt_wf hc)

/-- C87: without debug logging nothing is logged. -/
theorem C87_silent (σ : Oracle) (σs : Nat → Oracle) (w : World) (c : Chanoma) (text : Str)
    (opts : CliOpts) (stdin : Except Str (List UInt8)) (hd : opts.debug = false) :
    (Chanoma.loadRcLogged σ false w).log = [] ∧ (c.normalizeLogged σs false text).log = [] ∧
    (c.normalizeWithPositionsLogged σs false text).log = [] ∧
    (cliRun σ σs w opts stdin).log = [] := by
  have e : ∀ {α β : Type} (x : Logged α) (f : α → Logged β), x.log = [] → (∀ a, (f a).log = []) →
      (x >>= f).log = [] := by
    intro α β x f hx hf
    rw [log_bind, hx]
    cases x.result <;> simp [hf]
  have e' : ∀ {α β : Type} (f : β → α → Logged β), (∀ b a, (f b a).log = []) → ∀ (l : List α) (b : β),
      (l.foldlM f b).log = [] := by
    intro α β f hf l
    induction l with
    | nil => intro b; rfl
    | cons a l ih => intro b; rw [List.foldlM_cons]; exact e _ _ (hf b a) (fun b => ih b)
  have h1 : (Chanoma.loadRcLogged σ false w).log = [] := by
    refine e _ _ (e _ _ ?_ (fun paths => e _ _ rfl (fun _ => ?_))) (fun _ => rfl)
    · unfold Configuration.filePathsLogged
      cases Configuration.filePathFromEnv w with
      | none => rfl
      | some p => exact e _ _ rfl (fun _ => rfl)
    · split
      · rfl
      · exact e _ _ rfl (fun _ => rfl)
  have h2 : ∀ (c : Chanoma) text, (c.normalizeLogged σs false text).log = [] := fun _ _ => rfl
  refine ⟨h1, h2 c text, ?_, ?_⟩
  · refine e _ _ (e' _ (fun st m => e _ _ rfl (fun r => e _ _ rfl (fun _ => rfl))) _ _) (fun _ => rfl)
  · have h3 : (cliMainLogged σ σs w opts stdin).log = [] := by
      unfold cliMainLogged
      rw [hd]
      refine e _ _ ?_ (fun c => e _ _ rfl (fun c => ?_))
      · rw [(cliLoadLogged_eq σ false w).1, h1]
      · unfold cliPrintLogged
        rw [hd]
        split
        · exact e _ _ (h2 _ _) (fun _ => rfl)
        · split
          · exact e _ _ (h2 _ _) (fun _ => rfl)
          · rfl
    unfold cliRun
    simp only [h3]
    split <;> rfl

theorem validFilePath_ok {w : World} {p : OsStr} (hutf8 : IsUtf8 p) :
    (UsableRc w p → Configuration.validFilePath w p = .ok [p]) ∧
    (¬ UsableRc w p → ∀ l, Configuration.validFilePath w p ≠ .ok l) := by
  obtain ⟨p, rfl⟩ := hutf8
  unfold Configuration.validFilePath UsableRc
  by_cases h : IsFile w (strBytes p)
  · rw [isFile_iff.mpr h]
    by_cases hx : ∃ ext, HasExt (strBytes p) ext
    · obtain ⟨ext, hx⟩ := hx
      obtain ⟨ext, rfl⟩ := hx.utf8
      rw [extension_iff.mpr hx]
      simp only [unwrap, Bool.not_true, Bool.false_eq_true, if_false, Outcome.ok_bind,
        strFromUtf8_strBytes]
      have key : ∀ e : Str, HasExt (strBytes p) (strBytes e) ↔ ext = e := by
        intro e
        constructor
        · intro he
          have := extension_iff.mpr he
          rw [extension_iff.mpr hx] at this
          exact strBytes_inj (Option.some.inj this)
        · rintro rfl; exact hx
      rw [← strBytes_csv, ← strBytes_yaml, key, key]
      constructor
      · rintro ⟨-, h1⟩
        have : FileExtension.all.all (fun e => e.toString != ext) = false := by
          rcases h1 with rfl | rfl <;> decide
        rw [this]; rfl
      · intro hn l
        have : FileExtension.all.all (fun e => e.toString != ext) = true := by
          have h1 : ext ≠ c! "csv" := fun e => hn ⟨h, .inl e⟩
          have h2 : ext ≠ c! "yaml" := fun e => hn ⟨h, .inr e⟩
          simp [FileExtension.all, FileExtension.toString, Ne.symm h1, Ne.symm h2]
        rw [this]
        simp
    · rw [extension_none.mpr hx]
      refine ⟨fun hu => ?_, fun _ l => by simp [unwrap]⟩
      rcases hu.2 with h' | h'
      · exact absurd ⟨_, h'⟩ hx
      · exact absurd ⟨_, h'⟩ hx
  · have : w.isFile (strBytes p) = false := by
      rw [← Bool.not_eq_true, isFile_iff]; exact h
    rw [this]
    exact ⟨fun hu => absurd hu.1 h, fun _ l => by simp⟩

theorem loadRcLogged_log (σ : Oracle) (w : World) :
    (Chanoma.loadRcLogged σ true w).log = (Configuration.filePathsLogged true w).log ++
      match Configuration.filePaths w with
      | .ok paths => [.loadFiles paths]
      | _ => [] := by
  unfold Chanoma.loadRcLogged Configuration.loadLogged
  rw [log_bind_quiet _ _ (fun _ => rfl), log_bind, filePathsLogged_result]
  congr 1
  cases Configuration.filePaths w with
  | err e => rfl
  | panic => rfl
  | ok paths =>
    simp only
    rw [log_bind_quiet]
    · rfl
    · intro _
      split
      · rfl
      · rw [log_bind_quiet _ _ (fun _ => rfl)]; rfl

/-- C87: what `load_rc` logs with debug logging, exactly. -/
theorem C87_search (σ : Oracle) (w : World) (log : List LogEvent) :
    SearchLogged w log ↔ (Chanoma.loadRcLogged σ true w).log = log := by
  rw [loadRcLogged_log]
  unfold Configuration.filePathsLogged Configuration.filePaths
  by_cases hs : ChanomarcSet w
  · obtain ⟨p, hp, hu⟩ := hs
    have hu' := hu
    obtain ⟨q, rfl⟩ := hu'
    rw [filePathFromEnv_some hp]
    obtain ⟨h1, h2⟩ := validFilePath_ok (w := w) hu
    have e : ((do emit true (.chanomarc (strBytes q) (w.entry (strBytes q)).isSome)
                  quiet (Configuration.validFilePath w (strBytes q)) : Logged (List OsStr))).log =
        [.chanomarc (strBytes q) (w.entry (strBytes q)).isSome] := by
      rw [log_bind]; rfl
    simp only [e]
    have hset : ChanomarcSet w := ⟨_, hp, hu⟩
    have hq : ∀ {p}, w.chanomarc = some p → p = strBytes q := by
      intro p h; rw [hp] at h; exact (Option.some.inj h).symm
    have hf : UsableRc w (strBytes q) → w.entry (strBytes q) ≠ none := by
      rintro ⟨⟨b, h⟩ | h, -⟩ <;> simp [h]
    constructor
    · intro h
      cases h with
      | searched h => exact absurd hset h
      | usable h _ hx =>
        cases hq h
        rw [h1 hx]
        have := hf hx
        rw [Option.isSome_iff_ne_none.2 this]
        rfl
      | unusable h _ hx hne =>
        cases hq h
        rw [Option.isSome_iff_ne_none.2 hne]
        cases hv : Configuration.validFilePath w (strBytes q) with
        | ok l => exact absurd hv (h2 hx l)
        | err _ => rfl
        | panic => rfl
      | absent h _ hne =>
        cases hq h
        rw [hne]
        cases hv : Configuration.validFilePath w (strBytes q) with
        | ok l => exact absurd hv (h2 (fun hx => hf hx hne) l)
        | err _ => rfl
        | panic => rfl
    · rintro rfl
      by_cases hx : UsableRc w (strBytes q)
      · rw [h1 hx, Option.isSome_iff_ne_none.2 (hf hx)]
        exact .usable hp hu hx
      · have : (match Configuration.validFilePath w (strBytes q) with
          | .ok paths => [LogEvent.loadFiles paths]
          | _ => []) = [] := by
          cases hv : Configuration.validFilePath w (strBytes q) with
          | ok l => exact absurd hv (h2 hx l)
          | err _ => rfl
          | panic => rfl
        rw [this]
        by_cases he : w.entry (strBytes q) = none
        · rw [he]; exact .absent hp hu he
        · rw [Option.isSome_iff_ne_none.2 he]; exact .unusable hp hu hx he
  · rw [filePathFromEnv_none hs]
    unfold Configuration.existsFilePaths
    rw [autoLoadPaths_eq]
    have e : (rcCandidates w).filter w.isFile =
        (rcCandidates w).filter fun p => @decide (IsFile w p) (Classical.propDecidable _) := by
      classical
      apply List.filter_congr
      intro p _
      rw [Bool.eq_iff_iff, decide_eq_true_iff, isFile_iff]
    rw [e]
    constructor
    · intro h
      cases h with
      | searched h => rfl
      | usable h hu => exact absurd ⟨_, h, hu⟩ hs
      | unusable h hu => exact absurd ⟨_, h, hu⟩ hs
      | absent h hu => exact absurd ⟨_, h, hu⟩ hs
    · rintro rfl
      exact .searched hs

/-! ## Whole runs -/

/-- A run in terms of `cliMain`. -/
theorem cliRun_eq (σ : Oracle) (σs : Nat → Oracle) (w : World) (opts : CliOpts)
    (stdin : Except Str (List UInt8)) :
    (∀ out, cliMain σ σs w opts stdin = .ok out →
      cliRun σ σs w opts stdin = ⟨out, (cliMainLogged σ σs w opts stdin).log, 0⟩) ∧
    ((¬ ∃ out, cliMain σ σs w opts stdin = .ok out) →
      cliRun σ σs w opts stdin = ⟨[], (cliMainLogged σ σs w opts stdin).log, 101⟩) := by
  unfold cliRun
  simp only [cliMainLogged_result]
  cases h : cliMain σ σs w opts stdin with
  | ok out => exact ⟨fun _ h => (by cases h; rfl), fun h => absurd ⟨out, rfl⟩ h⟩
  | err e => exact ⟨fun _ h => (by cases h), fun _ => rfl⟩
  | panic => exact ⟨fun _ h => (by cases h), fun _ => rfl⟩

theorem cliMainLogged_log {σ : Oracle} {σs : Nat → Oracle} {w : World} {opts : CliOpts}
    {stdin : Except Str (List UInt8)} :
    ((¬ ∃ c, Chanoma.loadRc σ w = .ok c) →
      (cliMainLogged σ σs w opts stdin).log = (Chanoma.loadRcLogged σ opts.debug w).log) ∧
    ∀ c c', Chanoma.loadRc σ w = .ok c → (cliCalls σ opts).foldlM Call.run c = .ok c' →
      (∀ input, CliInput opts stdin input → (cliMainLogged σ σs w opts stdin).log =
        (Chanoma.loadRcLogged σ opts.debug w).log ++ (c'.normalizeLogged σs opts.debug input).log) ∧
      (opts.input = none → ∀ msg, readLine stdin = .error msg →
        (cliMainLogged σ σs w opts stdin).log = (Chanoma.loadRcLogged σ opts.debug w).log) := by
  obtain ⟨h1, h2, h3⟩ := cliLoadLogged_eq σ opts.debug w
  unfold cliMainLogged
  refine ⟨fun h => ?_, fun c c' hc hc' => ?_⟩
  · rw [log_bind, h3 h, h1]; simp
  · rw [log_bind, h2 c hc, h1]
    simp only
    rw [log_bind, show (quiet (cliPipeline σ opts c)).result = .ok c' from (cliPipeline_eq ..).trans hc']
    simp only [quiet, List.nil_append]
    constructor
    · intro input hin
      congr 1
      unfold cliPrintLogged
      cases hin with
      | argument h => rw [h]; exact log_bind_quiet _ _ (fun _ => rfl)
      | line h h4 h5 =>
        subst h4
        rw [h]
        have hn : '\n' ∉ input := newline_notMem (by cases h5 <;> assumption)
        obtain ⟨l, h6, h7⟩ := (readLine_first h5).1 _ rfl
        simp only [h6]
        rcases h7 with rfl | rfl
        · rw [(trimEnd_newline hn).1]; exact log_bind_quiet _ _ (fun _ => rfl)
        · rw [(trimEnd_newline hn).2]; exact log_bind_quiet _ _ (fun _ => rfl)
    · intro h msg hm
      unfold cliPrintLogged
      rw [h]
      simp only [hm]
      exact List.append_nil _

/-- C87: a run without `-d`: nothing is logged; it ends with status 0 after printing, or with 101 without. -/
theorem C87_quiet_run (σ : Oracle) (σs : Nat → Oracle) (w : World) (opts : CliOpts)
    (stdin : Except Str (List UInt8)) (hd : opts.debug = false) :
    (∀ out, cliMain σ σs w opts stdin = .ok out → cliRun σ σs w opts stdin = ⟨out, [], 0⟩) ∧
    ((¬ ∃ out, cliMain σ σs w opts stdin = .ok out) → cliRun σ σs w opts stdin = ⟨[], [], 101⟩) := by
  obtain ⟨h1, h2⟩ := cliRun_eq σ σs w opts stdin
  have h3 := (C87_silent σ σs w .new [] opts stdin hd).2.2.2
  refine ⟨fun out h => ?_, fun h => ?_⟩
  · rw [h1 out h] at h3 ⊢; rw [show (cliMainLogged σ σs w opts stdin).log = [] from h3]
  · rw [h2 h] at h3 ⊢; rw [show (cliMainLogged σ σs w opts stdin).log = [] from h3]

theorem programModifiers_run {σ : Oracle} {w : World} {opts : CliOpts} {c : Chanoma}
    (hc : Chanoma.loadRc σ w = .ok c) :
    ∃ c', (cliCalls σ opts).foldlM Call.run c = .ok c' ∧ ApiBuilt c' ∧
      ∀ ms, ProgramModifiers σ w opts ms ↔ ms = c'.modifiers := by
  obtain ⟨x, h1, -⟩ := allCharactersSet_ok σ
  obtain ⟨y, h2, -⟩ := neologdn_new σ
  have hp : ∀ c, (Call.usePreset σ).run c = .ok ⟨c.modifiers ++ [.characterConverter x]⟩ := by
    intro c; simp [Call.run, Chanoma.usePreset, h1]
  have hn : ∀ c, (Call.useNeologdn σ).run c = .ok ⟨c.modifiers ++ [.neologdn y]⟩ := by
    intro c; simp [Call.run, Chanoma.useNeologdn, h2]
  have hp' : Chanoma.preset σ = .ok ⟨[.characterConverter x]⟩ := by simp [Chanoma.preset, h1]
  have hn' : Chanoma.neologdn σ = .ok ⟨[.neologdn y]⟩ := by simp [Chanoma.neologdn, h2]
  have key : ∀ ms, ProgramModifiers σ w opts ms ↔ ms = c.modifiers ++
      (if opts.preset then [.characterConverter x] else []) ++ (if opts.neologdn then [.neologdn y] else []) := by
    intro ms
    constructor
    · rintro ⟨h3, h4, h5⟩
      rw [hc] at h3; rw [hp'] at h4; rw [hn'] at h5
      cases h3; cases h4; cases h5; rfl
    · rintro rfl
      exact .mk hc hp' hn'
  have hb := ApiBuilt.loadRc hc
  by_cases p : opts.preset <;> by_cases n : opts.neologdn
  · refine ⟨⟨c.modifiers ++ [.characterConverter x] ++ [.neologdn y]⟩, by simp [cliCalls, p, n, hp, hn],
      .call _ (.call _ hb (hp c)) (hn _), fun ms => by rw [key]; simp [p, n]⟩
  · refine ⟨⟨c.modifiers ++ [.characterConverter x]⟩, by simp [cliCalls, p, n, hp],
      .call _ hb (hp c), fun ms => by rw [key]; simp [p, n]⟩
  · refine ⟨⟨c.modifiers ++ [.neologdn y]⟩, by simp [cliCalls, p, n, hn],
      .call _ hb (hn c), fun ms => by rw [key]; simp [p, n]⟩
  · refine ⟨c, by simp [cliCalls, p, n], hb, fun ms => by rw [key]; simp [p, n]⟩

/-- C87: a run with `-d`, exactly.  First the search for rc files is logged.  If they cannot be loaded
nothing else is, nothing is printed and the status is 101.  Otherwise one record per modifier is logged;
the text of the last one and a line end are printed, with status 0; without modifiers the program panics
with status 101.  If standard input cannot be read or its first line is not valid UTF-8, no record is
logged, an error is printed on standard output, and the status is 0. -/
theorem C87_debug_run (σ : Oracle) (σs : Nat → Oracle) (w : World) (opts : CliOpts)
    (stdin : Except Str (List UInt8)) (hd : opts.debug = true) (search : List LogEvent)
    (hs : SearchLogged w search) :
    ((¬ ∃ c, Chanoma.loadRc σ w = .ok c) → cliRun σ σs w opts stdin = ⟨[], search, 101⟩) ∧
    (∀ ms input, ProgramModifiers σ w opts ms → CliInput opts stdin input →
      ∃ rs, StepRecords σs ms 0 input rs ∧
        (rs = [] → cliRun σ σs w opts stdin = ⟨[], search, 101⟩) ∧
        (∀ r, rs.getLast? = some r →
          cliRun σ σs w opts stdin = ⟨r.text ++ ['\n'], search ++ rs.map .record, 0⟩)) ∧
    ((∃ c, Chanoma.loadRc σ w = .ok c) → opts.input = none → ∀ msg, stdin = .error msg →
      cliRun σ σs w opts stdin = ⟨c! "error: " ++ msg ++ ['\n'], search, 0⟩) ∧
    ((∃ c, Chanoma.loadRc σ w = .ok c) → opts.input = none → ∀ bytes line, stdin = .ok bytes →
      FirstLine bytes line → ¬ IsUtf8 line →
      cliRun σ σs w opts stdin = ⟨c! "error: stream did not contain valid UTF-8\n", search, 0⟩) := by
  obtain ⟨h1, h2⟩ := cliRun_eq σ σs w opts stdin
  obtain ⟨f1, f2, f3⟩ := C45_failures σ σs w opts stdin
  obtain ⟨l1, l2⟩ := cliMainLogged_log (σ := σ) (σs := σs) (w := w) (opts := opts) (stdin := stdin)
  have hs' := (C87_search σ w search).1 hs
  rw [hd] at l1 l2
  refine ⟨fun h => ?_, fun ms input hms hin => ?_, fun ⟨c, hc⟩ hi msg hm => ?_,
    fun ⟨c, hc⟩ hi bytes line hb hl hn => ?_⟩
  · rw [h2 (by rw [f1 h]; simp), l1 h, hs']
  · have hc : ∃ c, Chanoma.loadRc σ w = .ok c := by cases hms with | mk h _ _ => exact ⟨_, h⟩
    obtain ⟨c, hc⟩ := hc
    obtain ⟨c', e1, hb, e2⟩ := programModifiers_run (opts := opts) hc
    cases (e2 ms).1 hms
    obtain ⟨rs, r1, r2, -, r4⟩ := C87_records c' hb σs input
    obtain ⟨c'', e3, e4⟩ := cliMain_eq (σs := σs) hin hc
    rw [e1] at e3; cases e3
    have hl := (l2 c c' hc e1).1 input hin
    rw [hs', r2] at hl
    have hnorm : c'.normalize σs true input = (ModifiedRecords.mk rs).text := by
      simp [Chanoma.normalize, r4]
    rw [hd, hnorm] at e4
    refine ⟨rs, r1, fun h => ?_, fun r hr => ?_⟩
    · subst h
      rw [h2 (by rw [e4]; simp [ModifiedRecords.text, unwrap]), hl]
      simp
    · rw [h1 (r.text ++ ['\n']) (by rw [e4]; simp [ModifiedRecords.text, unwrap, hr]), hl]
  · obtain ⟨c', e1, -, -⟩ := programModifiers_run (opts := opts) hc
    rw [h1 _ (f2 ⟨c, hc⟩ hi msg hm), (l2 c c' hc e1).2 hi msg (by rw [hm]; rfl), hs']
  · obtain ⟨c', e1, -, -⟩ := programModifiers_run (opts := opts) hc
    rw [h1 _ (f3 ⟨c, hc⟩ hi bytes line hb hl hn),
      (l2 c c' hc e1).2 hi _ (by rw [hb]; exact (readLine_first hl).2 hn), hs']

/-- C87: the exit status.  It is 0 exactly if something was printed, and otherwise 101; it is 0 exactly if
the rc files load and not both `-d` is given and a text is normalised by no modifier.  In particular
standard input that cannot be read or is not valid UTF-8 does not show in the status. -/
theorem C87_status (σ : Oracle) (σs : Nat → Oracle) (w : World) (opts : CliOpts)
    (stdin : Except Str (List UInt8)) :
    ((cliRun σ σs w opts stdin).status = 0 ∨ (cliRun σ σs w opts stdin).status = 101) ∧
    ((cliRun σ σs w opts stdin).status = 0 ↔ (cliRun σ σs w opts stdin).stdout ≠ []) ∧
    ((cliRun σ σs w opts stdin).status = 0 ↔ ∃ ms, ProgramModifiers σ w opts ms ∧
      ¬ (opts.debug = true ∧ ms = [] ∧ ∃ input, CliInput opts stdin input)) := by
  obtain ⟨h1, h2⟩ := cliRun_eq σ σs w opts stdin
  have hne : ∀ out, cliMain σ σs w opts stdin = .ok out → out ≠ [] := by
    intro out ho
    by_cases h : ∃ c, Chanoma.loadRc σ w = .ok c
    · obtain ⟨c, hc⟩ := h
      rcases C45_input_cases opts stdin with ⟨input, hin⟩ | ⟨hi, ⟨msg, hm⟩ | ⟨bytes, line, hb, hl, hn⟩⟩
      · obtain ⟨c', -, e⟩ := cliMain_eq (σs := σs) hin hc
        rw [e, bind_eq_ok] at ho
        obtain ⟨r, -, ho⟩ := ho
        cases ho; simp
      · rw [(C45_failures σ σs w opts stdin).2.1 ⟨c, hc⟩ hi msg hm] at ho
        cases ho; simp
      · rw [(C45_failures σ σs w opts stdin).2.2 ⟨c, hc⟩ hi bytes line hb hl hn] at ho
        cases ho; simp
    · rw [(C45_failures σ σs w opts stdin).1 h] at ho; cases ho
  have key : (cliRun σ σs w opts stdin).status = 0 ↔ ∃ out, cliMain σ σs w opts stdin = .ok out := by
    by_cases h : ∃ out, cliMain σ σs w opts stdin = .ok out
    · obtain ⟨out, ho⟩ := h; rw [h1 out ho]; exact ⟨fun _ => ⟨out, ho⟩, fun _ => rfl⟩
    · rw [h2 h]; simp [h]
  refine ⟨?_, ?_, ?_⟩
  · by_cases h : ∃ out, cliMain σ σs w opts stdin = .ok out
    · exact .inl (key.2 h)
    · rw [h2 h]; exact .inr rfl
  · by_cases h : ∃ out, cliMain σ σs w opts stdin = .ok out
    · obtain ⟨out, ho⟩ := h
      rw [h1 out ho]
      simp [hne out ho]
    · rw [h2 h]; simp
  · rw [key]
    constructor
    · rintro ⟨out, ho⟩
      by_cases h : ∃ c, Chanoma.loadRc σ w = .ok c
      · obtain ⟨c, hc⟩ := h
        obtain ⟨c', e1, hb, e2⟩ := programModifiers_run (opts := opts) hc
        refine ⟨_, (e2 _).2 rfl, ?_⟩
        rintro ⟨hd, hm, input, hin⟩
        obtain ⟨c'', e3, e4⟩ := cliMain_eq (σs := σs) hin hc
        rw [e1] at e3; cases e3
        have : c' = Chanoma.new := by cases c'; cases hm; rfl
        rw [e4, hd, this, (C21_empty_pipeline σs input).1] at ho
        cases ho
      · rw [(C45_failures σ σs w opts stdin).1 h] at ho; cases ho
    · rintro ⟨ms, hms, hn⟩
      have hc : ∃ c, Chanoma.loadRc σ w = .ok c := by cases hms with | mk h _ _ => exact ⟨_, h⟩
      obtain ⟨c, hc⟩ := hc
      obtain ⟨c', e1, hb, e2⟩ := programModifiers_run (opts := opts) hc
      cases (e2 ms).1 hms
      rcases C45_input_cases opts stdin with ⟨input, hin⟩ | ⟨hi, ⟨msg, hm⟩ | ⟨bytes, line, hb, hl, hn⟩⟩
      · obtain ⟨c'', e3, e4⟩ := cliMain_eq (σs := σs) hin hc
        rw [e1] at e3; cases e3
        obtain ⟨rs, -, -, h3⟩ := pipeline_eq c' (apiBuilt_wf hb) σs input
        rw [e4]
        cases hd : opts.debug with
        | false => rw [h3]; exact ⟨_, rfl⟩
        | true =>
          rw [C21_debug_partial c' hb (fun e => hn ⟨hd, e, input, hin⟩), h3]
          exact ⟨_, rfl⟩
      · exact ⟨_, (C45_failures σ σs w opts stdin).2.1 ⟨c, hc⟩ hi msg hm⟩
      · exact ⟨_, (C45_failures σ σs w opts stdin).2.2 ⟨c, hc⟩ hi bytes line hb hl hn⟩

/-- The environment of the examples: `CHANOMARC` names a table. -/
def loggedWorld : World :=
  .ofFiles [(p! "/t.csv", .text (c! "from,to\na,A\n"))] (chanomarc := some (p! "/t.csv"))

/-- Meets the hypotheses of `C87_debug_run`. -/
example : SearchLogged loggedWorld [.chanomarc (p! "/t.csv") true, .loadFiles [p! "/t.csv"]] :=
  .usable rfl ⟨c! "/t.csv", by decide +kernel⟩
    ⟨.inl ⟨_, rfl⟩, .inl (extension_iff.1 (by decide +kernel))⟩

/-- `chanoma -d xa`: two messages of the search, one record, the text and status 0. -/
example : let r := cliRun .insertion (fun _ => .insertion) loggedWorld ⟨some (c! "xa"), true, false, false⟩ (.ok [])
    r.stdout = c! "xA\n" ∧ r.status = 0 ∧
      r.log = [.chanomarc (p! "/t.csv") true, .loadFiles [p! "/t.csv"],
        .record ⟨.characterConverter (.fromMap [('a', 'A')]), c! "xA", [⟨c! "a", c! "A", 1, 1, 1, 1⟩]⟩] := by
  decide +kernel

/-- `chanoma -d xa` without rc files panics after the search is logged; `chanoma` with an invalid first
line on standard input ends with status 0. -/
example : cliRun .insertion (fun _ => .insertion) (.ofFiles []) ⟨some (c! "xa"), true, false, false⟩ (.ok []) =
      ⟨[], [.loadFiles []], 101⟩ ∧
    cliRun .insertion (fun _ => .insertion) (.ofFiles []) ⟨none, false, false, false⟩ (.ok [0xFF, 0x0A]) =
      ⟨c! "error: stream did not contain valid UTF-8\n", [], 0⟩ := by
  decide +kernel

/-- `chanoma -dpn xa`: three modifiers. -/
example (σ : Oracle) : ∃ ms, ProgramModifiers σ loggedWorld ⟨some (c! "xa"), true, true, true⟩ ms ∧
    ms.length = 3 ∧ CliInput ⟨some (c! "xa"), true, true, true⟩ (.ok []) (c! "xa") := by
  obtain ⟨x, h1, -⟩ := allCharactersSet_ok σ
  obtain ⟨y, h2, -⟩ := neologdn_new σ
  exact ⟨_, .mk (c := ⟨[.characterConverter (.fromMap [('a', 'A')])]⟩) (p := ⟨[.characterConverter x]⟩)
    (n := ⟨[.neologdn y]⟩) (by rfl) (by simp [Chanoma.preset, h1]) (by simp [Chanoma.neologdn, h2]),
    rfl, .argument rfl⟩

end Chanoma
