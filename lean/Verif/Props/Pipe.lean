import Verif.Spec.Pipe
import Verif.Props.Logging
import Verif.Props.Commute
import Verif.Props.Frame
/-! # C101: programs joined by `|` -/

namespace Chanoma

theorem program_loads {p : Program} {ms : List ModifierKind} (h : ProgramModifiers p.σ p.w p.opts ms) :
    ∃ c, Chanoma.loadRc p.σ p.w = .ok c := by
  cases h with
  | mk h _ _ => exact ⟨_, h⟩

theorem program_prints {p : Program} {stdin : Except Str (List UInt8)} {text out : Str}
    (hin : CliInput p.opts stdin text) (h : p.Makes text out) :
    (p.run stdin).stdout = out ++ ['\n'] ∧ (p.run stdin).status = 0 := by
  obtain ⟨ms, h1, h2, h3⟩ := h
  obtain ⟨c, hc⟩ := program_loads h1
  obtain ⟨c', g1, g2, g3⟩ := programModifiers_run (opts := p.opts) hc
  obtain ⟨c'', g4, g5⟩ := cliMain_eq (σs := p.σs) hin hc
  rw [g1] at g4
  cases g4
  rw [g3] at h1
  subst h1
  have h4 : c'.normalize p.σs p.opts.debug text = .ok out := by
    cases hd : p.opts.debug with
    | false => exact h3
    | true => rw [C21_debug_partial c' g2 (h2 hd) p.σs text]; exact h3
  rw [h4] at g5
  unfold Program.run
  rw [(cliRun_eq ..).1 _ g5]
  exact ⟨rfl, rfl⟩

theorem strBytes_no_newline {t : Str} (h : '\n' ∉ t) : 0x0A ∉ strBytes t := by
  intro hm
  obtain ⟨a, b, hab⟩ := List.append_of_mem hm
  obtain ⟨s1, s2, rfl, rfl⟩ := strBytes_split (by decide) hab
  have e : strBytes t = strBytes (s1 ++ ['\n'] ++ s2) := by
    rw [strBytes_append, strBytes_append, strBytes_newline, hab]; simp
  have := congrArg strFromUtf8 e
  rw [strFromUtf8_strBytes, strFromUtf8_strBytes, Option.some.injEq] at this
  exact h (by rw [this]; simp)

theorem firstLine_spec (t : Str) : '\n' ∉ firstLine t ∧ ∃ rest, t ++ ['\n'] = firstLine t ++ '\n' :: rest := by
  unfold firstLine
  induction t with
  | nil => exact ⟨by simp, [], rfl⟩
  | cons c t ih =>
    by_cases hc : c = '\n'
    · subst hc
      exact ⟨by simp, t ++ ['\n'], by simp⟩
    · obtain ⟨h1, rest, h2⟩ := ih
      rw [List.takeWhile_cons_of_pos (by simpa using hc)]
      refine ⟨?_, rest, by rw [List.cons_append, h2, List.cons_append]⟩
      rw [List.mem_cons, not_or]
      exact ⟨Ne.symm hc, h1⟩

theorem firstLine_self {t : Str} (h : '\n' ∉ t) : firstLine t = t := by
  unfold firstLine
  induction t with
  | nil => rfl
  | cons c t ih =>
    rw [List.mem_cons, not_or] at h
    rw [List.takeWhile_cons_of_pos (by simpa using Ne.symm h.1), ih h.2]

theorem reads_first_line {p : Program} (hp : p.opts.input = none) (t : Str) :
    CliInput p.opts (.ok (strBytes (t ++ ['\n']))) (firstLine t) := by
  obtain ⟨h1, rest, h2⟩ := firstLine_spec t
  refine .line hp rfl ?_
  rw [h2, strBytes_append, show '\n' :: rest = ['\n'] ++ rest from rfl, strBytes_append, strBytes_newline]
  exact .ended (strBytes_no_newline h1)

/-- C101: what the last program prints, and its status. -/
theorem C101_pipe (p : Program) (ps : List Program) (stdin : Except Str (List UInt8)) (text out : Str)
    (hin : CliInput p.opts stdin text) (h : Piped p ps text out) :
    (pipe p ps stdin).stdout = out ++ ['\n'] ∧ (pipe p ps stdin).status = 0 := by
  induction h generalizing stdin with
  | last h => exact program_prints hin h
  | next h hq _ ih =>
    unfold pipe
    rw [(program_prints hin h).1]
    exact ih _ (reads_first_line hq _)

theorem program_makes {p : Program} {ms : List ModifierKind} (h : ProgramModifiers p.σ p.w p.opts ms)
    (hd : p.opts.debug = true → ms ≠ []) (text : Str) : ∃ out, p.Makes text out := by
  obtain ⟨c, hc⟩ := program_loads h
  obtain ⟨c', -, g2, g3⟩ := programModifiers_run (opts := p.opts) hc
  obtain ⟨rs, -, -, h3⟩ := pipeline_eq c' (apiBuilt_wf g2) p.σs text
  exact ⟨_, ms, h, hd, by rw [(g3 ms).1 h]; exact h3⟩

/-- C101: something comes out if the rc files of all programs load, the later ones have no argument, and each of
those with `-d` has a modifier. -/
theorem C101_comes_out (p : Program) (ps : List Program)
    (h : ∀ q ∈ p :: ps, ∃ ms, ProgramModifiers q.σ q.w q.opts ms ∧ (q.opts.debug = true → ms ≠ []))
    (hq : ∀ q ∈ ps, q.opts.input = none) (text : Str) : ∃ out, Piped p ps text out := by
  induction ps generalizing p text with
  | nil =>
    obtain ⟨ms, h1, h2⟩ := h p (by simp)
    obtain ⟨out, h3⟩ := program_makes h1 h2 text
    exact ⟨out, .last h3⟩
  | cons q ps ih =>
    obtain ⟨ms, h1, h2⟩ := h p (by simp)
    obtain ⟨made, h3⟩ := program_makes h1 h2 text
    obtain ⟨out, h4⟩ := ih q (fun q hm => h q (List.mem_cons_of_mem _ hm))
      (fun q hm => hq q (List.mem_cons_of_mem _ hm)) (firstLine made)
    exact ⟨out, .next h3 (hq q (by simp)) h4⟩

/-- C101: two programs do what one normaliser with the modifiers of both does, unless the first makes a text of
several lines. -/
theorem C101_together (p q : Program) (stdin : Except Str (List UInt8)) (text made : Str)
    (hin : CliInput p.opts stdin text) (hq : q.opts.input = none) (ms ns : List ModifierKind)
    (hp : ProgramModifiers p.σ p.w p.opts ms) (hq' : ProgramModifiers q.σ q.w q.opts ns)
    (hd : p.opts.debug = true → ms ≠ []) (hd' : q.opts.debug = true → ns ≠ [])
    (hm : (Chanoma.mk ms).normalize p.σs false text = .ok made) (hn : '\n' ∉ made) :
    ∃ ρs out, (Chanoma.mk (ms ++ ns)).normalize ρs false text = .ok out ∧
      (pipe p [q] stdin).stdout = out ++ ['\n'] := by
  obtain ⟨out, h1⟩ := program_makes hq' hd' made
  have h2 : firstLine made = made := by
    exact firstLine_self hn
  refine ⟨fun i => if i < ms.length then p.σs i else q.σs (i - ms.length), out, ?_,
    (C101_pipe p [q] stdin text out hin (.next ⟨ms, hp, hd, hm⟩ hq (.last (h2.symm ▸ h1)))).1⟩
  obtain ⟨ns', h3, -, h4⟩ := h1
  have hns : ns' = ns := by
    obtain ⟨c, hc⟩ := program_loads hq'
    obtain ⟨c', -, -, g3⟩ := programModifiers_run (opts := q.opts) hc
    rw [(g3 _).1 h3, (g3 _).1 hq']
  subst hns
  have e1 : ∀ (l : List ModifierKind) (i j : Nat) (f g : Nat → Oracle) (t : Str),
      (∀ k, k < l.length → f (i + k) = g (j + k)) →
      (l.zipIdx i).foldlM (fun acc m => m.1.modify (f m.2) acc) t =
        (l.zipIdx j).foldlM (fun acc m => m.1.modify (g m.2) acc) t := by
    intro l
    induction l with
    | nil => intros; rfl
    | cons m l ih =>
      intro i j f g t h
      rw [List.zipIdx_cons, List.zipIdx_cons, List.foldlM_cons, List.foldlM_cons]
      have h0 := h 0 (by simp)
      simp only [Nat.add_zero] at h0
      simp only [h0]
      congr 1
      funext t'
      apply ih
      intro k hk
      have := h (k + 1) (by simp; omega)
      rw [show i + 1 + k = i + (k + 1) by omega, show j + 1 + k = j + (k + 1) by omega]
      exact this
  have e2 := e1 ms 0 0 (fun i => if i < ms.length then p.σs i else q.σs (i - ms.length)) p.σs text (by
    intro k hk
    simp only [Nat.zero_add]
    rw [if_pos hk])
  have e3 := e1 ns' ms.length 0 (fun i => if i < ms.length then p.σs i else q.σs (i - ms.length)) q.σs made (by
    intro k hk
    simp only [Nat.zero_add]
    rw [if_neg (by omega), Nat.add_sub_cancel_left])
  simp only [Chanoma.normalize, Bool.not_false, if_true] at hm h4 ⊢
  rw [hm] at e2
  rw [h4] at e3
  rw [List.zipIdx_append, List.foldlM_append, e2, Outcome.ok_bind, Nat.zero_add, e3]

/-- C101: a program with an argument does not read what comes before it. -/
theorem C101_argument (p q : Program) (ps : List Program) (hq : q.opts.input ≠ none)
    (stdin stdin' : Except Str (List UInt8)) : pipe p (q :: ps) stdin = pipe q ps stdin' := by
  have h : ∀ s, q.run s = q.run stdin' := by
    intro s
    obtain ⟨t, ht⟩ := Option.ne_none_iff_exists'.1 hq
    unfold Program.run cliRun cliMainLogged cliPrintLogged
    simp only [ht]
  cases ps with
  | nil => exact h _
  | cons r ps => simp only [pipe, h]

/-- C101: that a program fails does not show: the next one goes on with the empty text. -/
theorem C101_failure_hidden (p q : Program) (ps : List Program) (stdin : Except Str (List UInt8))
    (h : (p.run stdin).status ≠ 0) (hq : q.opts.input = none) (out : Str) (ho : Piped q ps [] out) :
    (pipe p (q :: ps) stdin).stdout = out ++ ['\n'] ∧ (pipe p (q :: ps) stdin).status = 0 := by
  have h1 : (p.run stdin).stdout = [] := by
    refine Classical.byContradiction fun hn => h ?_
    exact ((C87_status p.σ p.σs p.w p.opts stdin).2.1).2 hn
  unfold pipe
  rw [h1]
  exact C101_pipe q ps _ [] out (.line hq rfl (.unended (by decide +kernel))) ho

/-- C101: the message that standard input cannot be read, or is not valid UTF-8, is taken for a text to be
normalised. -/
theorem C101_message_normalised (p q : Program) (ps : List Program) (stdin : Except Str (List UInt8))
    (hp : p.opts.input = none) (hl : ∃ c, Chanoma.loadRc p.σ p.w = .ok c) (msg : Str)
    (hs : stdin = .error msg ∨ msg = c! "stream did not contain valid UTF-8" ∧
      ∃ bytes line, stdin = .ok bytes ∧ FirstLine bytes line ∧ ¬ IsUtf8 line)
    (hq : q.opts.input = none) (out : Str) (ho : Piped q ps (firstLine (c! "error: " ++ msg)) out) :
    (pipe p (q :: ps) stdin).stdout = out ++ ['\n'] ∧ (pipe p (q :: ps) stdin).status = 0 := by
  have h1 : cliMain p.σ p.σs p.w p.opts stdin = .ok (c! "error: " ++ msg ++ ['\n']) := by
    obtain ⟨-, g1, g2⟩ := C45_failures p.σ p.σs p.w p.opts stdin
    rcases hs with hs | ⟨rfl, bytes, line, h2, h3, h4⟩
    · exact g1 hl hp msg hs
    · exact g2 hl hp bytes line h2 h3 h4
  have h2 : (p.run stdin).stdout = c! "error: " ++ msg ++ ['\n'] := by
    unfold Program.run
    rw [(cliRun_eq ..).1 _ h1]
  unfold pipe
  rw [h2]
  exact C101_pipe q ps _ _ out (reads_first_line hq _) ho

theorem preset_newline (c : Char) (h : presetFold c ≠ c) : c ≠ '\n' ∧ presetFold c ≠ '\n' := by
  have hc : ∀ n ∈ presetCodes, Char.ofNat n ≠ '\n' ∧ presetFold (Char.ofNat n) ≠ '\n' := by decide +kernel
  have := hc _ (presetFold_ne h)
  rwa [char_ofNat_toNat] at this

theorem fold_newline (c : Char) (h : neologdnFold c ≠ c) : c ≠ '\n' ∧ neologdnFold c ≠ '\n' := by
  have h1 : ∀ c ∈ choonpuVariants ++ hyphenVariants, c ≠ '\n' ∧ neologdnFold c ≠ '\n' := by decide +kernel
  by_cases h2 : c ∈ choonpuVariants ++ hyphenVariants
  · exact h1 c h2
  · rw [List.mem_append, not_or] at h2
    have h3 : c ≠ '＝' := fun e => h (by rw [e]; decide +kernel)
    have e : neologdnFold c = presetFold c := by simp [neologdnFold, h2, h3]
    rw [e] at h ⊢
    exact preset_newline c h

theorem neologdn_mentions_newline (x : Neologdn) (c : Char) (h : Mentions (.neologdn x) c) : c ≠ '\n' := by
  rcases h with ⟨d, hd, rfl | rfl⟩ | rfl | rfl | h | ⟨a, m, b, hv, h⟩
  · exact (fold_newline _ (Ne.symm hd)).1
  · exact (fold_newline _ (Ne.symm hd)).2
  · decide +kernel
  · decide +kernel
  · have : ∀ c ∈ tildeChars, c ≠ '\n' := by decide +kernel
    exact this c h
  · have h3 : ∀ r ∈ neologdnLigatures, ∀ a ∈ r.1.head?, ∀ m ∈ r.1.getLast?, ∀ b ∈ r.2.head?,
        a ≠ '\n' ∧ m ≠ '\n' ∧ b ≠ '\n' := by decide +kernel
    obtain ⟨g1, g2, g3⟩ := h3 _ (voiced_cases hv) a rfl m rfl b rfl
    rcases h with rfl | rfl | rfl
    · exact g1
    · exact g2
    · exact g3

theorem call_newline {call : Call} (ht : ∀ t, call ≠ .addTable t) {text : Str} (h : '\n' ∉ text) :
    '\n' ∉ call.meaning text := by
  cases call with
  | usePreset σ =>
    intro hm
    obtain ⟨c, h1, h2⟩ := List.mem_map.1 hm
    by_cases hc : presetFold c = c
    · exact h (by rw [← h2, hc]; exact h1)
    · exact (preset_newline c hc).2 h2
  | useNeologdn σ =>
    obtain ⟨c, h1, h2⟩ := C16_neologdn σ
    have h3 := C77_frame c (.neologdn h1) (fun c => c = '\n') (fun k hk ch hm => by
      obtain ⟨x, g1, -⟩ := neologdn_new σ
      simp [Chanoma.neologdn, g1] at h1
      rw [← h1] at hk
      rw [List.mem_singleton.1 hk] at hm
      simpa using neologdn_mentions_newline x ch hm) (fun _ => .insertion) false text _ (h2 _ _ _)
    intro hm
    have : '\n' ∈ (neologdnSpec text).filter fun c => c = '\n' := List.mem_filter.2 ⟨hm, by simp⟩
    rw [h3] at this
    exact h (List.mem_filter.1 this).1
  | addTable t => exact (ht t rfl).elim

theorem calls_newline {calls : List Call} (ht : ∀ t, Call.addTable t ∉ calls) {text : Str} (h : '\n' ∉ text) :
    '\n' ∉ calls.foldl Call.meaning text := by
  induction calls generalizing text with
  | nil => exact h
  | cons call calls ih =>
    exact ih (fun t hm => ht t (List.mem_cons_of_mem _ hm))
      (call_newline (fun t e => ht t (by rw [e]; exact List.mem_cons_self)) h)

theorem cliCalls_no_table (σ : Oracle) (opts : CliOpts) (t : Table) : Call.addTable t ∉ cliCalls σ opts := by
  unfold cliCalls
  split <;> split <;> simp

/-- C101: without rc files two programs joined by `|` print what one with the options of both prints, unless both
have `-n`: `-p | -n`, `-n | -p` and `-p -n` are the same. -/
theorem C101_options (p q r : Program) (stdin : Except Str (List UInt8)) (text : Str)
    (hin : CliInput p.opts stdin text) (hn : '\n' ∉ text) (hq : q.opts.input = none) (hr : r.opts.input = p.opts.input)
    (hrc : ∀ s ∈ [p, q, r], Chanoma.loadRc s.σ s.w = .ok Chanoma.new ∧ s.opts.debug = false)
    (h1 : r.opts.preset = (p.opts.preset || q.opts.preset))
    (h2 : r.opts.neologdn = (p.opts.neologdn || q.opts.neologdn))
    (h3 : ¬ (p.opts.neologdn = true ∧ q.opts.neologdn = true)) :
    (pipe p [q] stdin).stdout = (r.run stdin).stdout := by
  have key : ∀ s ∈ [p, q, r], ∀ stdin text, CliInput s.opts stdin text →
      (s.run stdin).stdout = (cliCalls s.σ s.opts).foldl Call.meaning text ++ ['\n'] := by
    intro s hs stdin text hin
    obtain ⟨g1, g2⟩ := hrc s hs
    obtain ⟨out, g3, g4⟩ := C45_prints_normalised s.σ s.σs s.w s.opts stdin text hin _ g1 g2
    cases g3
    unfold Program.run
    rw [(cliRun_eq ..).1 _ g4]
  have hin' : CliInput r.opts stdin text := by
    cases hin with
    | argument h => exact .argument (hr.trans h)
    | line h g1 g2 => exact .line (hr.trans h) g1 g2
  have hnl := calls_newline (cliCalls_no_table p.σ p.opts) hn
  have hin2 := reads_first_line hq ((cliCalls p.σ p.opts).foldl Call.meaning text)
  rw [firstLine_self hnl] at hin2
  show (q.run (.ok (strBytes (p.run stdin).stdout))).stdout = _
  rw [key p (by simp) _ _ hin, key q (by simp) _ _ hin2, key r (by simp) _ _ hin', ← List.foldl_append]
  congr 1
  have hs : ∀ calls : List Call, (∀ t, Call.addTable t ∉ calls) → ∃ c, calls.foldlM Call.run Chanoma.new = .ok c := by
    intro calls ht
    refine (C22_call_order Chanoma.new calls).1.2 fun call hm => ?_
    cases call with
    | addTable t => exact (ht t hm).elim
    | usePreset σ => trivial
    | useNeologdn σ => trivial
  have ht : ∀ t, Call.addTable t ∉ cliCalls p.σ p.opts ++ cliCalls q.σ q.opts := by
    intro t hm
    rcases List.mem_append.1 hm with hm | hm
    · exact cliCalls_no_table _ _ t hm
    · exact cliCalls_no_table _ _ t hm
  obtain ⟨c, hc⟩ := hs _ ht
  obtain ⟨c', hc'⟩ := hs _ (cliCalls_no_table r.σ r.opts)
  have h4 := C68_sequences Chanoma.new c c' .new _ _ hc hc' (fun t => ⟨ht t, cliCalls_no_table _ _ t⟩) (by
    unfold HasPreset cliCalls
    rw [h1]
    cases p.opts.preset <;> cases q.opts.preset <;> cases p.opts.neologdn <;> cases q.opts.neologdn <;>
      cases r.opts.neologdn <;> simp) (by
    unfold cliCalls
    rw [h1, h2]
    revert h3
    cases p.opts.preset <;> cases q.opts.preset <;> cases p.opts.neologdn <;> cases q.opts.neologdn <;>
      simp [neologdnCount]) (fun _ => .insertion) false text
  rw [(C22_from_new _ c hc _ _).1, (C22_from_new _ c' hc' _ _).1, Outcome.ok.injEq] at h4
  exact h4

/-- The program with these options in a working directory with this file, if any. -/
def exampleProgram (opts : CliOpts) (rc : Option Str) : Program :=
  ⟨opts, .ofFiles (rc.toList.map fun t => (p! "/work/.chanomarc.csv", .text t)), .insertion, fun _ => .insertion⟩

/-- `-n | -n` is not `-n`. -/
theorem C101_not_twice : ∃ p : Program, p.opts = ⟨none, false, false, true⟩ ∧
    (p.run (.ok (strBytes (c! "ー ー\n")))).stdout = c! "ーー\n" ∧
    (pipe p [p] (.ok (strBytes (c! "ー ー\n")))).stdout = c! "ー\n" :=
  ⟨exampleProgram ⟨none, false, false, true⟩ none, rfl, by decide +kernel, by decide +kernel⟩

/-- Three programs; the first makes two lines, of which one goes on. -/
example : (pipe (exampleProgram ⟨some (c! "ａ－ｂ\nｃ"), false, true, false⟩ none)
      [exampleProgram ⟨none, false, false, true⟩ none, exampleProgram ⟨none, true, false, false⟩ (some (c! "from,to\na,x\n"))]
      (.ok [])).stdout = c! "x-b\n" := by decide +kernel

/-- The rc file of the first program has an empty cell, the second ends with status 0. -/
example : ((exampleProgram ⟨some (c! "a"), false, true, false⟩ (some (c! "from,to\na,\n"))).run (.ok [])).status = 101 ∧
    (pipe (exampleProgram ⟨some (c! "a"), false, true, false⟩ (some (c! "from,to\na,\n")))
      [exampleProgram ⟨none, false, true, false⟩ none] (.ok [])).stdout = c! "\n" := by decide +kernel

/-- The second program normalises the message of the first. -/
example : (pipe (exampleProgram ⟨none, false, true, false⟩ none)
      [exampleProgram ⟨none, false, false, false⟩ (some (c! "from,to\nr,R\n"))] (.ok [0xFF])).stdout =
    c! "eRRoR: stReam did not contain valid UTF-8\n" := by decide +kernel

/-- Without rc files the normaliser of the rc files is empty; the hypotheses of `C101_options` are met. -/
example : Chanoma.loadRc .insertion (exampleProgram ⟨none, false, true, false⟩ none).w = .ok Chanoma.new ∧
    CliInput ⟨none, false, true, false⟩ (.ok (strBytes (c! "Ａ" ++ ['\n']))) (c! "Ａ") ∧
    ∃ ms, ProgramModifiers .insertion (exampleProgram ⟨none, false, true, false⟩ none).w ⟨none, false, true, false⟩ ms := by
  have h : Chanoma.loadRc .insertion (exampleProgram ⟨none, false, true, false⟩ none).w = .ok Chanoma.new := by
    decide +kernel
  refine ⟨h, reads_first_line (p := exampleProgram ⟨none, false, true, false⟩ none) rfl (c! "Ａ"), ?_⟩
  obtain ⟨c', -, -, h3⟩ := programModifiers_run (opts := ⟨none, false, true, false⟩) h
  exact ⟨_, (h3 _).2 rfl⟩

end Chanoma
