import Verif.Props.Pipeline
import Verif.Props.Csv
import Verif.Props.Sets
import Verif.Model.Cli
import Verif.Proofs.Path
/-! # C45, C46: the command line program and the Python binding -/

namespace Chanoma

/-! ## C45 -/

/-- The bytes of the first line, without the newline. -/
inductive FirstLine : List UInt8 → List UInt8 → Prop
  | ended {line rest} : 0x0A ∉ line → FirstLine (line ++ 0x0A :: rest) line
  | unended {line} : 0x0A ∉ line → FirstLine line line

/-- `CliInput opts stdin input`: the text to be normalised is the argument, or the first line of
standard input without its line end. -/
inductive CliInput (opts : CliOpts) (stdin : Except Str (List UInt8)) : Str → Prop
  | argument {input : Str} : opts.input = some input → CliInput opts stdin input
  | line {line : Str} {bytes : List UInt8} : opts.input = none → stdin = .ok bytes →
      FirstLine bytes (strBytes line) → CliInput opts stdin line

/-- The modifiers the options add, in order. -/
def cliCalls (σ : Oracle) (opts : CliOpts) : List Call :=
  (if opts.preset then [.usePreset σ] else []) ++ (if opts.neologdn then [.useNeologdn σ] else [])

theorem readUntilNewline_line (line rest : List UInt8) (h : 0x0A ∉ line) :
    readUntilNewline (line ++ 0x0A :: rest) = line ++ [0x0A] := by
  induction line with
  | nil => simp [readUntilNewline]
  | cons c line ih =>
    simp only [List.mem_cons, not_or] at h
    rw [List.cons_append, readUntilNewline, if_neg (fun e => h.1 e.symm), ih h.2]; rfl

theorem readUntilNewline_last (line : List UInt8) (h : 0x0A ∉ line) : readUntilNewline line = line := by
  induction line with
  | nil => rfl
  | cons c line ih =>
    simp only [List.mem_cons, not_or] at h
    rw [readUntilNewline, if_neg (fun e => h.1 e.symm), ih h.2]

theorem strBytes_newline : strBytes ['\n'] = [0x0A] := by decide +kernel

theorem newline_notMem {line : Str} (h : 0x0A ∉ strBytes line) : '\n' ∉ line := by
  intro hm
  apply h
  obtain ⟨a, b, rfl⟩ := List.append_of_mem hm
  rw [strBytes_append, show '\n' :: b = ['\n'] ++ b from rfl, strBytes_append, strBytes_newline]
  simp

/-- The first line, as `read_line` sees it. -/
theorem readLine_first {b line : List UInt8} (h : FirstLine b line) :
    (∀ s, line = strBytes s → ∃ l, readLine (.ok b) = .ok l ∧ (l = s ∨ l = s ++ ['\n'])) ∧
    (¬ IsUtf8 line → readLine (.ok b) = .error (c! "stream did not contain valid UTF-8")) := by
  cases h with
  | ended h =>
    simp only [readLine, readUntilNewline_line _ _ h]
    constructor
    · rintro s rfl
      rw [← strBytes_newline, ← strBytes_append, strFromUtf8_strBytes]
      exact ⟨_, rfl, .inr rfl⟩
    · intro hn
      cases hs : strFromUtf8 (line ++ [0x0A]) with
      | none => rfl
      | some s =>
        obtain ⟨s1, s2, h1, -⟩ := strBytes_split (by decide) ((strFromUtf8_eq_some_iff _ _).mp hs)
        exact absurd ⟨s1, h1⟩ hn
  | unended h =>
    simp only [readLine, readUntilNewline_last _ h]
    constructor
    · rintro s rfl
      rw [strFromUtf8_strBytes]
      exact ⟨_, rfl, .inl rfl⟩
    · intro hn
      cases hs : strFromUtf8 b with
      | none => rfl
      | some s => exact absurd ⟨s, ((strFromUtf8_eq_some_iff _ _).mp hs).symm⟩ hn

theorem firstLine_exists : ∀ b, ∃ line, FirstLine b line
  | [] => ⟨[], .unended (by simp)⟩
  | x :: b => by
    by_cases hx : x = 0x0A
    · subst hx
      exact ⟨[], .ended (line := []) (by simp)⟩
    · obtain ⟨line, h⟩ := firstLine_exists b
      cases h with
      | ended h => exact ⟨x :: line, .ended (line := x :: line) (by simp [h, Ne.symm hx])⟩
      | unended h => exact ⟨x :: b, .unended (by simp [h, Ne.symm hx])⟩

theorem trimEnd_newline {line : Str} (h : '\n' ∉ line) :
    trimEndMatches '\n' line = line ∧ trimEndMatches '\n' (line ++ ['\n']) = line := by
  have h1 : line.reverse.dropWhile (· == '\n') = line.reverse := by
    cases hr : line.reverse with
    | nil => rfl
    | cons c r =>
      have : c ∈ line := by rw [← List.mem_reverse, hr]; simp
      rw [List.dropWhile_cons, if_neg]
      simp only [beq_iff_eq]
      rintro rfl
      exact h this
  unfold trimEndMatches
  constructor
  · rw [h1, List.reverse_reverse]
  · rw [List.reverse_append]
    simp [h1]

theorem cliMain_run {σ : Oracle} {w : World} (σs : Nat → Oracle) (opts : CliOpts)
    (stdin : Except Str (List UInt8)) {c : Chanoma} (hc : Chanoma.loadRc σ w = .ok c) :
    ∃ c', (cliCalls σ opts).foldlM Call.run c = .ok c' ∧
      cliMain σ σs w opts stdin = match opts.input with
        | some input => do
          let result ← c'.normalize σs opts.debug input
          return result ++ ['\n']
        | none => match readLine stdin with
          | .ok line => do
            let result ← c'.normalize σs opts.debug (trimEndMatches '\n' line)
            return result ++ ['\n']
          | .error msg => return c! "error: " ++ msg ++ ['\n'] := by
  obtain ⟨c1, h1⟩ := (call_succeeds c (.usePreset σ)).mpr trivial
  obtain ⟨c2, h2⟩ := (call_succeeds c (.useNeologdn σ)).mpr trivial
  obtain ⟨c3, h3⟩ := (call_succeeds c1 (.useNeologdn σ)).mpr trivial
  simp only [Call.run] at h1 h2 h3
  unfold cliMain
  rw [hc]
  by_cases hp : opts.preset <;> by_cases hn : opts.neologdn
  · exact ⟨c3, by simp [cliCalls, hp, hn, Call.run, h1, h3], by simp [hp, hn, h1, h3]; rfl⟩
  · exact ⟨c1, by simp [cliCalls, hp, hn, Call.run, h1], by simp [hp, hn, h1]; rfl⟩
  · exact ⟨c2, by simp [cliCalls, hp, hn, Call.run, h2], by simp [hp, hn, h2]; rfl⟩
  · exact ⟨c, by simp [cliCalls, hp, hn], by simp [hp, hn]; rfl⟩

theorem cliMain_eq {σ : Oracle} {σs : Nat → Oracle} {w : World} {opts : CliOpts}
    {stdin : Except Str (List UInt8)} {input : Str} (hin : CliInput opts stdin input) {c : Chanoma}
    (hc : Chanoma.loadRc σ w = .ok c) :
    ∃ c', (cliCalls σ opts).foldlM Call.run c = .ok c' ∧
      cliMain σ σs w opts stdin = (c'.normalize σs opts.debug input >>= fun r => .ok (r ++ ['\n'])) := by
  obtain ⟨c', h1, h2⟩ := cliMain_run σs opts stdin hc
  refine ⟨c', h1, ?_⟩
  rw [h2]
  cases hin with
  | argument h => rw [h]; rfl
  | line h h2 h3 =>
    subst h2
    rw [h]
    have hn : '\n' ∉ input := newline_notMem (by cases h3 <;> assumption)
    obtain ⟨l, h4, h5⟩ := (readLine_first h3).1 _ rfl
    simp only [h4]
    rcases h5 with rfl | rfl
    · rw [(trimEnd_newline hn).1]; rfl
    · rw [(trimEnd_newline hn).2]; rfl

/-- C45: the program prints what the pipeline of the rc files, then the preset if asked for, then
neologdn if asked for, make of the input, and a line end. -/
theorem C45_prints_normalised (σ : Oracle) (σs : Nat → Oracle) (w : World) (opts : CliOpts)
    (stdin : Except Str (List UInt8)) (input : Str) (hin : CliInput opts stdin input) (c : Chanoma)
    (hc : Chanoma.loadRc σ w = .ok c) (hd : opts.debug = false) :
    ∃ out, c.normalize σs false input = .ok out ∧
      cliMain σ σs w opts stdin = .ok ((cliCalls σ opts).foldl Call.meaning out ++ ['\n']) := by
  obtain ⟨c', h1, h2⟩ := cliMain_eq (σs := σs) hin hc
  obtain ⟨rs, -, -, h3⟩ := pipeline_eq c (apiBuilt_wf (.loadRc hc)) σs input
  refine ⟨_, h3, ?_⟩
  rw [h2, hd, ((C22_call_order c _).2 c' h1).2 σs input _ h3]
  rfl

/-- C45 with `-d`, the exact outcome: the same is printed if there is any modifier; otherwise (no rc
files, neither `-p` nor `-n`) the program panics. -/
theorem C45_debug (σ : Oracle) (σs : Nat → Oracle) (w : World) (opts : CliOpts)
    (stdin : Except Str (List UInt8)) (input : Str) (hin : CliInput opts stdin input) (c : Chanoma)
    (hc : Chanoma.loadRc σ w = .ok c) (hd : opts.debug = true) :
    ((c.modifiers ≠ [] ∨ opts.preset = true ∨ opts.neologdn = true) →
      cliMain σ σs w opts stdin = cliMain σ σs w { opts with debug := false } stdin) ∧
    (c.modifiers = [] → opts.preset = false → opts.neologdn = false →
      cliMain σ σs w opts stdin = .panic) := by
  obtain ⟨c', h1, h2⟩ := cliMain_eq (σs := σs) hin hc
  have hin' : CliInput { opts with debug := false } stdin input := by
    cases hin with
    | argument h => exact .argument h
    | line h h2 h3 => exact .line h h2 h3
  obtain ⟨c'', h1', h2'⟩ := cliMain_eq (σs := σs) hin' hc
  have hcc : c'' = c' := by
    have : (cliCalls σ { opts with debug := false }) = cliCalls σ opts := rfl
    rw [this, h1] at h1'
    cases h1'; rfl
  subst hcc
  obtain ⟨ks, hks, hlen⟩ := ((C22_call_order c _).2 _ h1).1
  have hb : ∀ (calls : List Call) (c0 c : Chanoma), ApiBuilt c0 → calls.foldlM Call.run c0 = .ok c → ApiBuilt c := by
    intro calls
    induction calls with
    | nil => intro c0 c h0 h; cases h; exact h0
    | cons call calls ih =>
      intro c0 c h0 h
      rw [List.foldlM_cons, bind_eq_ok] at h
      obtain ⟨c1, h1, h2⟩ := h
      exact ih c1 c (.call call h0 h1) h2
  refine ⟨fun h => ?_, fun hm hp hn => ?_⟩
  · rw [h2, h2', hd, C21_debug_partial _ (hb _ _ _ (.loadRc hc) h1) ?_ σs input]
    intro hnil
    rw [hks] at hnil
    simp only [List.append_eq_nil_iff] at hnil
    rcases h with h | h | h
    · exact h hnil.1
    · rw [hnil.2] at hlen; simp [cliCalls, h] at hlen
    · rw [hnil.2] at hlen; simp [cliCalls, h] at hlen
  · have : c''.modifiers = [] := by
      rw [hks, hm]
      simp [cliCalls, hp, hn] at hlen
      simp [hlen]
    rw [h2, hd]
    have e : c'' = ⟨[]⟩ := by cases c''; simp_all
    rw [e]
    rfl

/-- C45: if the rc files cannot be loaded the program panics, whatever the options; if standard input
cannot be read, or its first line is not valid UTF-8, an error is printed. -/
theorem C45_failures (σ : Oracle) (σs : Nat → Oracle) (w : World) (opts : CliOpts)
    (stdin : Except Str (List UInt8)) :
    ((¬ ∃ c, Chanoma.loadRc σ w = .ok c) → cliMain σ σs w opts stdin = .panic) ∧
    ((∃ c, Chanoma.loadRc σ w = .ok c) → opts.input = none → ∀ msg, stdin = .error msg →
      cliMain σ σs w opts stdin = .ok (c! "error: " ++ msg ++ ['\n'])) ∧
    ((∃ c, Chanoma.loadRc σ w = .ok c) → opts.input = none → ∀ bytes line, stdin = .ok bytes →
      FirstLine bytes line → ¬ IsUtf8 line →
      cliMain σ σs w opts stdin = .ok (c! "error: stream did not contain valid UTF-8\n")) := by
  refine ⟨?_, ?_, ?_⟩
  · intro h
    unfold cliMain
    cases hl : Chanoma.loadRc σ w with
    | ok c => exact absurd ⟨c, hl⟩ h
    | err e => rfl
    | panic => rfl
  · rintro ⟨c, hc⟩ hi msg rfl
    obtain ⟨c', -, h2⟩ := cliMain_run σs opts (.error msg) hc
    rw [h2, hi]
    rfl
  · rintro ⟨c, hc⟩ hi bytes line rfl hl hn
    obtain ⟨c', -, h2⟩ := cliMain_run σs opts (.ok bytes) hc
    rw [h2, hi]
    simp only [(readLine_first hl).2 hn]
    rfl

/-- C45: the bytes written `strBytes` in the specifications are those of the text in UTF-8. -/
theorem C45_utf8 (s : Str) : strBytes s = (String.ofList s).toByteArray.data.toList := by
  simp [strBytes, String.ofList, List.utf8Encode]

/-- C45: the theorems above cover every case: there is a text to be normalised, or standard input
cannot be read, or its first line is not valid UTF-8. -/
theorem C45_input_cases (opts : CliOpts) (stdin : Except Str (List UInt8)) :
    (∃ input, CliInput opts stdin input) ∨ (opts.input = none ∧ ((∃ msg, stdin = .error msg) ∨
      ∃ bytes line, stdin = .ok bytes ∧ FirstLine bytes line ∧ ¬ IsUtf8 line)) := by
  cases hi : opts.input with
  | some input => exact .inl ⟨input, .argument hi⟩
  | none =>
    cases stdin with
    | error msg => exact .inr ⟨rfl, .inl ⟨msg, rfl⟩⟩
    | ok bytes =>
      obtain ⟨line, hl⟩ := firstLine_exists bytes
      by_cases hu : IsUtf8 line
      · obtain ⟨s, rfl⟩ := hu
        exact .inl ⟨s, .line hi rfl hl⟩
      · exact .inr ⟨rfl, .inr ⟨bytes, line, rfl, hl, hu⟩⟩

/-- Two lines on standard input, an rc file in the working directory, option `-p`. -/
example : cliMain .insertion (fun _ => .insertion)
      (.ofFiles [(p! "/work/.chanomarc.csv", .text (c! "from,to\na,Ｂ\n"))])
      ⟨none, false, true, false⟩ (.ok (p! "aａ\nrest")) = .ok (c! "Ba\n") ∧
    CliInput ⟨none, false, true, false⟩ (.ok (p! "aａ\nrest")) (c! "aａ") :=
  ⟨by decide +kernel, .line (bytes := p! "aａ\nrest") rfl rfl (by
    rw [show strBytes (c! "aａ") = p! "aａ" by decide +kernel]
    exact .ended (line := p! "aａ") (rest := p! "rest") (by decide))⟩

/-- A first line that is not valid UTF-8; what follows the first line is not looked at. -/
example : cliMain .insertion (fun _ => .insertion) (.ofFiles []) ⟨none, false, true, false⟩
      (.ok [0xFF, 0x0A, 0x61]) = .ok (c! "error: stream did not contain valid UTF-8\n") ∧
    cliMain .insertion (fun _ => .insertion) (.ofFiles []) ⟨none, false, true, false⟩
      (.ok [0x61, 0x0A, 0xFF]) = .ok (c! "a\n") ∧
    FirstLine [0xFF, 0x0A, 0x61] [0xFF] :=
  ⟨by decide +kernel, by decide +kernel, .ended (line := [0xFF]) (by decide)⟩

/-! ## C46 -/

/-- The pipeline the configuration arguments stand for; `configfile` wins over `rc`. -/
def pyBase (σ : Oracle) (w : World) (a : PyArgs) : Outcome Chanoma :=
  match a.configfile, a.rc with
  | some file, _ => Chanoma.fromConfigFile σ w (strBytes file)
  | none, true => Chanoma.loadRc σ w
  | none, false => .ok Chanoma.new

/-- The modifiers the other arguments add, in order. -/
def pyCalls (σ : Oracle) (a : PyArgs) : List Call :=
  (match a.table with | some t => [.addTable t] | none => []) ++
  (if a.preset then [.usePreset σ] else []) ++ (if a.neologdn then [.useNeologdn σ] else [])

theorem bind_ok_self {α : Type} (x : Outcome α) : (x >>= fun a => .ok a) = x := by cases x <;> rfl

/-- C46: constructing the Python object does the same as the Rust functions called in the order
configuration, table, preset, neologdn. -/
theorem C46_constructor (σ : Oracle) (w : World) (a : PyArgs) :
    pyChanomaNew σ w a = (pyBase σ w a >>= fun c => (pyCalls σ a).foldlM Call.run c) := by
  obtain ⟨t, n, p, r, f⟩ := a
  unfold pyChanomaNew pyBase pyCalls
  cases f <;> cases r <;> cases t <;> cases p <;> cases n <;> simp [Call.run, bind_ok_self]

/-- C46: if the configuration loads to `c` and the table has no empty cell, the Python object
normalises every text to what the added modifiers, in order, make of what `c` makes of it.  A
failing configuration raises its error; a table with an empty cell panics. -/
theorem C46_normalize (σ : Oracle) (w : World) (a : PyArgs) :
    (∀ c, pyBase σ w a = .ok c → (∀ t, a.table = some t → CellsNonEmpty t.items) →
      ∃ c', pyChanomaNew σ w a = .ok c' ∧ ∀ σs text, ∃ out,
        c.normalize σs false text = .ok out ∧
        pyNormalize c' σs text = .ok ((pyCalls σ a).foldl Call.meaning out)) ∧
    (∀ e, pyBase σ w a = .err e → pyChanomaNew σ w a = .err e) ∧
    (pyBase σ w a = .panic → pyChanomaNew σ w a = .panic) ∧
    (∀ c t, pyBase σ w a = .ok c → a.table = some t → ¬ CellsNonEmpty t.items →
      pyChanomaNew σ w a = .panic) := by
  rw [C46_constructor]
  refine ⟨fun c hc ht => ?_, fun e he => by rw [he]; rfl, fun h => by rw [h]; rfl, fun c t hc ht hn => ?_⟩
  · obtain ⟨c', h1⟩ := (C22_call_order c (pyCalls σ a)).1.mpr (by
      intro call hcall
      simp only [pyCalls, List.mem_append] at hcall
      rcases hcall with (h | h) | h
      · split at h
        · rename_i t hta
          simp at h; subst h; exact ht t hta
        · simp at h
      · split at h <;> simp at h; subst h; trivial
      · split at h <;> simp at h; subst h; trivial)
    refine ⟨c', by rw [hc]; exact h1, fun σs text => ?_⟩
    have hb : ApiBuilt c := by
      unfold pyBase at hc
      split at hc
      · exact .fromConfigFile hc
      · exact .loadRc hc
      · cases hc; exact .new
    obtain ⟨rs, -, -, h3⟩ := pipeline_eq c (apiBuilt_wf hb) σs text
    exact ⟨_, h3, ((C22_call_order c _).2 c' h1).2 σs text _ h3⟩
  · have hp : (Call.addTable t).run c = .panic := by
      simp only [Call.run, Chanoma.addTable]
      rw [fromTables_one_panic _ hn]
      rfl
    rw [hc]
    simp only [pyCalls, ht, List.cons_append, List.nil_append, Outcome.ok_bind, List.foldlM_cons, hp]
    rfl

/-- C46: `Table(preset, csv, yaml)` holds exactly the preset's items if asked for and the items of
the files. -/
theorem C46_table_items (σ : Oracle) (w : World) (preset : Bool) (csv yaml : Option Str) (t : Table)
    (ht : pyTableNew σ w preset csv yaml = .ok t) (x : Item) :
    x ∈ t.items ↔ (preset = true ∧ PresetItem x) ∨
      (∃ p tc, csv = some p ∧ tableFromCsvPath w (strBytes p) = .ok tc ∧ x ∈ tc.items) ∨
      (∃ p ty, yaml = some p ∧ tableFromYamlPath w (strBytes p) = .ok ty ∧ x ∈ ty.items) := by
  have h0 : x ∈ (if preset then TableBuilder.new.preset σ else TableBuilder.new).build.items ↔
      (preset = true ∧ PresetItem x) := by
    cases preset with
    | false => simp [TableBuilder.new, TableBuilder.build, Table.new, Table.items]
    | true => rw [if_pos rfl, mem_presetTable, ← presetItem_iff]; simp
  have hadd : ∀ (b : TableBuilder) (tc : Table),
      x ∈ (TableBuilder.mk (b.table.add σ tc.corr)).build.items ↔ x ∈ b.build.items ∨ x ∈ tc.items :=
    fun b tc => mem_corrAdd
  unfold pyTableNew TableBuilder.addFromCsv TableBuilder.addFromYaml at ht
  cases csv with
  | none =>
    cases yaml with
    | none => simp at ht; subst ht; simp [h0]
    | some q =>
      cases hq : tableFromYamlPath w (strBytes q) <;> simp only [hq, Outcome.ok_bind, Outcome.pure_eq] at ht <;> cases ht
      rw [hadd, h0]; simp [hq]
  | some p =>
    cases hp : tableFromCsvPath w (strBytes p) with
    | err e => simp [hp] at ht
    | panic => simp [hp] at ht
    | ok tc =>
    cases yaml with
    | none =>
      simp only [hp, Outcome.ok_bind, Outcome.pure_eq] at ht
      cases ht
      rw [hadd, h0]; simp [hp]
    | some q =>
      cases hq : tableFromYamlPath w (strBytes q) <;> simp only [hp, hq, Outcome.ok_bind, Outcome.pure_eq] at ht <;> cases ht
      rw [hadd, hadd, h0]; simp [hp, hq, or_assoc]

theorem forall_eq_imp {α β : Type} (a : α) (P : α → β → Prop) :
    (∀ p e, a = p → P p e) ↔ ∀ e, P a e :=
  ⟨fun h e => h a e rfl, by rintro h p e rfl; exact h e⟩

/-- C46: `Table(preset, csv, yaml)` succeeds exactly if the given files load; the first failing one
decides.  A YAML file that parses but has the wrong shape (C34) makes it panic. -/
theorem C46_table_outcome (σ : Oracle) (w : World) (preset : Bool) (csv yaml : Option Str) :
    ((∃ t, pyTableNew σ w preset csv yaml = .ok t) ↔
      (∀ p, csv = some p → ∃ t, tableFromCsvPath w (strBytes p) = .ok t) ∧
      (∀ p, yaml = some p → ∃ t, tableFromYamlPath w (strBytes p) = .ok t)) ∧
    (∀ p e, csv = some p → tableFromCsvPath w (strBytes p) = .err e →
      pyTableNew σ w preset csv yaml = .err e) ∧
    (∀ p e, (∀ q, csv = some q → ∃ t, tableFromCsvPath w (strBytes q) = .ok t) → yaml = some p →
      tableFromYamlPath w (strBytes p) = .err e → pyTableNew σ w preset csv yaml = .err e) ∧
    (∀ p, (∀ q, csv = some q → ∃ t, tableFromCsvPath w (strBytes q) = .ok t) → yaml = some p →
      tableFromYamlPath w (strBytes p) = .panic → pyTableNew σ w preset csv yaml = .panic) := by
  unfold pyTableNew TableBuilder.addFromCsv TableBuilder.addFromYaml
  cases csv with
  | none =>
    cases yaml with
    | none => simp
    | some q => cases hq : tableFromYamlPath w (strBytes q) <;> simp [hq, forall_eq_imp]
  | some p =>
    cases yaml with
    | none => cases hp : tableFromCsvPath w (strBytes p) <;> simp [hp, forall_eq_imp]
    | some q =>
      cases hp : tableFromCsvPath w (strBytes p) <;> cases hq : tableFromYamlPath w (strBytes q) <;>
        simp [hp, hq, forall_eq_imp]

/-- C46: `Table.add` is the union. -/
theorem C46_table_add (σ : Oracle) (t : Table) (items : List Item) (x : Item) :
    x ∈ (pyTableAdd σ t items).items ↔ x ∈ t.items ∨ x ∈ items := mem_corrAdd

/-- C46: adding an object of one of the character set classes adds its class of characters. -/
theorem C46_table_add_set (σ τ : Oracle) (t : Table) (s : PyCharactersSet) (x : Item) :
    x ∈ (pyTableAdd σ t (s.items τ)).items ↔ x ∈ t.items ∨ match s with
      | .alphabets => ∃ c, IsWideLetter c ∧ x = ⟨[c], [presetFold c]⟩
      | .digits => ∃ c, IsWideDigit c ∧ x = ⟨[c], [presetFold c]⟩
      | .punctuations => ∃ c, IsWideSymbol c ∧ x = ⟨[c], [presetFold c]⟩
      | .kanas => ∃ c, IsNarrowKana c ∧ x = ⟨[c], [presetFold c]⟩
      | .cjkCompatibilities => ∃ c, x.from = [c] ∧ x.to ∈ listedExpansions c := by
  obtain ⟨h1, h2, h3, h4⟩ := C51_sets τ x
  rw [C46_table_add]
  cases s
  · exact or_congr Iff.rfl h2
  · exact or_congr Iff.rfl h1
  · exact or_congr Iff.rfl h4
  · exact or_congr Iff.rfl h3
  · exact or_congr Iff.rfl ((C47_items τ).1 x)

/-- `Table()`, then `add`, then `Chanoma(table=…, preset=True)`. -/
example : (pyTableNew .insertion (.ofFiles []) false none none >>= fun t =>
    pyChanomaNew .insertion (.ofFiles [])
      { table := some (pyTableAdd .insertion t [⟨c! "a", c! "Ｚ"⟩]), preset := true } >>= fun c =>
    pyNormalize c (fun _ => .insertion) (c! "aＡ")) = .ok (c! "ZA") := by decide +kernel

end Chanoma
