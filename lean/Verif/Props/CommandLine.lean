import Verif.Props.Cli
import Verif.Model.CommandLine
import Verif.Spec.CommandLine
/-! # C82: the command line -/

namespace Chanoma

theorem hyphen_head {s : Str} {r : List UInt8} (h : strBytes s = 0x2D :: r) :
    ∃ t, s = '-' :: t ∧ r = strBytes t := by
  cases s with
  | nil => simp [strBytes] at h
  | cons c t =>
    rw [strBytes_cons] at h
    have h1 := utf8Head_encode c (strBytes t)
    rw [h] at h1
    have h2 : utf8Head (0x2D :: r) = some ('-', r) := by
      have : utf8SeqLen 0x2D = 1 := by decide +kernel
      have h3 : String.utf8EncodeChar '-' = [0x2D] := by decide +kernel
      have h4 : Char.ofNat (utf8Number [0x2D]) = '-' := by decide +kernel
      simp [utf8Head, this, h3, h4]
    rw [h2] at h1
    simp only [Option.some.injEq, Prod.mk.injEq] at h1
    exact ⟨t, by rw [← h1.1], h1.2⟩

theorem strBytes_hyphen (t : Str) : strBytes ('-' :: t) = 0x2D :: strBytes t := by
  rw [strBytes_cons, show String.utf8EncodeChar '-' = [0x2D] by decide +kernel]; rfl

/-- What is known after these flags and texts. -/
def ClapSeen.add (s : ClapSeen) (fs : List CliFlag) (ts : List Str) : Option ClapSeen :=
  if (s.input.toList ++ ts).length ≤ 1 then
    some { debug := s.debug + fs.count .debug, preset := s.preset + fs.count .preset,
           neologdn := s.neologdn + fs.count .neologdn, input := (s.input.toList ++ ts).head? }
  else none

theorem ClapSeen.add_nil (s : ClapSeen) : s.add [] [] = some s := by
  cases s with
  | mk d p n i => cases i <;> simp [ClapSeen.add]

theorem ClapSeen.add_add (s : ClapSeen) (fs gs : List CliFlag) (ts us : List Str) :
    (s.add fs ts).bind (fun s => s.add gs us) = s.add (fs ++ gs) (ts ++ us) := by
  cases s with
  | mk d p n i =>
    cases i <;> cases ts with
    | nil => simp [ClapSeen.add, List.count_append, Nat.add_assoc] <;> cases us <;> simp
    | cons t ts => cases ts <;> cases us <;> simp [ClapSeen.add, List.count_append, Nat.add_assoc] <;> omega

theorem clapPositional_add (t : Str) (s : ClapSeen) :
    clapPositional (strBytes t) s = s.add [] [t] := by
  cases s with
  | mk d p n i => cases i <;> simp [clapPositional, ClapSeen.add, strFromUtf8_strBytes]

theorem clapPositional_inv {a : OsStr} {s s' : ClapSeen} (h : clapPositional a s = some s') :
    ∃ t, a = strBytes t := by
  unfold clapPositional at h
  split at h
  · simp at h
  · split at h
    · rename_i t ht
      exact ⟨t, ((strFromUtf8_eq_some_iff _ _).1 ht).symm⟩
    · simp at h

theorem clapShorts_add (fs : List CliFlag) (s : ClapSeen) :
    clapShorts (fs.map CliFlag.letter) s = s.add fs [] := by
  induction fs generalizing s with
  | nil => rw [ClapSeen.add_nil]; rfl
  | cons f fs ih =>
    have h := ClapSeen.add_add s [f] fs [] []
    simp only [List.cons_append, List.nil_append] at h
    rw [← h]
    cases s with
    | mk d p n i => cases f <;> cases i <;> simp [clapShorts, CliFlag.letter, ih, ClapSeen.add]

theorem clapShorts_inv : ∀ {bs : OsStr} {s s' : ClapSeen}, clapShorts bs s = some s' →
    ∃ fs : List CliFlag, bs = fs.map CliFlag.letter
  | [], _, _, _ => ⟨[], rfl⟩
  | b :: bs, s, s', h => by
    unfold clapShorts at h
    split at h
    · obtain ⟨fs, rfl⟩ := clapShorts_inv h
      exact ⟨.debug :: fs, by simp [CliFlag.letter, *]⟩
    · split at h
      · obtain ⟨fs, rfl⟩ := clapShorts_inv h
        exact ⟨.preset :: fs, by simp [CliFlag.letter, *]⟩
      · split at h
        · obtain ⟨fs, rfl⟩ := clapShorts_inv h
          exact ⟨.neologdn :: fs, by simp [CliFlag.letter, *]⟩
        · simp at h

theorem clapLong_inv {a : OsStr} {s s' : ClapSeen} (h : clapLong a s = some s') :
    ∃ f : CliFlag, p! "--" ++ a = f.long := by
  unfold clapLong at h
  split at h
  · exact ⟨.debug, by subst a; rfl⟩
  · split at h
    · exact ⟨.preset, by subst a; rfl⟩
    · split at h
      · exact ⟨.neologdn, by subst a; rfl⟩
      · simp at h

theorem clapGo_true (ts : List Str) (s : ClapSeen) :
    clapGo true (ts.map strBytes) s = s.add [] ts := by
  induction ts generalizing s with
  | nil => rw [ClapSeen.add_nil]; rfl
  | cons t ts ih =>
    have h := ClapSeen.add_add s [] [] [t] ts
    simp only [List.cons_append, List.nil_append] at h
    rw [← h, List.map_cons, clapGo, clapPositional_add]
    simp only [ih]; rfl

theorem clapGo_true_inv : ∀ {as : List OsStr} {s s' : ClapSeen}, clapGo true as s = some s' →
    ∃ ts : List Str, as = ts.map strBytes
  | [], _, _, _ => ⟨[], rfl⟩
  | a :: as, s, s', h => by
    rw [clapGo] at h
    cases hp : clapPositional a s with
    | none => rw [hp] at h; simp at h
    | some s1 =>
      rw [hp] at h
      obtain ⟨t, rfl⟩ := clapPositional_inv hp
      obtain ⟨ts, rfl⟩ := clapGo_true_inv (s := s1) (s' := s') h
      exact ⟨t :: ts, rfl⟩

theorem clapGo_word {a : OsStr} {fs : List CliFlag} {ts : List Str} (h : WordMeans a fs ts)
    (as : List OsStr) (s : ClapSeen) :
    clapGo false (a :: as) s = (s.add fs ts).bind (clapGo false as) := by
  cases h with
  | long f =>
    cases s with
    | mk d p n i => cases f <;> cases i <;> simp [CliFlag.long, clapGo, clapLong, ClapSeen.add]
  | letters f fs =>
    rw [← clapShorts_add]
    cases f <;> simp [clapGo, CliFlag.letter]
  | text t ht =>
    rw [← clapPositional_add]
    rcases ht with rfl | ht
    · rw [show strBytes ['-'] = [0x2D] by decide +kernel]
      simp [clapGo]
    · cases hb : strBytes t with
      | nil => simp [clapGo]
      | cons b bs =>
        have hne : b ≠ 0x2D := by
          rintro rfl
          obtain ⟨t', rfl, -⟩ := hyphen_head hb
          exact ht t' rfl
        simp [clapGo, hne]

theorem clapGo_word_inv {a : OsStr} {as : List OsStr} {s s' : ClapSeen}
    (h : clapGo false (a :: as) s = some s') :
    (a = p! "--" ∧ clapGo true as s = some s') ∨ ∃ fs ts, WordMeans a fs ts := by
  unfold clapGo at h
  split at h
  · exact .inl ⟨rfl, h⟩
  · rename_i name hn
    cases hl : clapLong name s with
    | none => rw [hl] at h; simp at h
    | some s1 =>
      obtain ⟨f, hf⟩ := clapLong_inv hl
      exact .inr ⟨[f], [], by have := WordMeans.long f; rwa [← hf] at this⟩
  · rename_i b bs hn hm
    cases hl : clapShorts (b :: bs) s with
    | none => rw [hl] at h; simp at h
    | some s1 =>
      obtain ⟨fs, hf⟩ := clapShorts_inv hl
      cases fs with
      | nil => simp at hf
      | cons f fs =>
        exact .inr ⟨f :: fs, [], by have := WordMeans.letters f fs; rw [← hf] at this; exact this⟩
  · rename_i h1 h2 h3
    cases hl : clapPositional a s with
    | none => rw [hl] at h; simp at h
    | some s1 =>
      obtain ⟨t, rfl⟩ := clapPositional_inv hl
      refine .inr ⟨[], [t], .text t ?_⟩
      by_cases ht : ∃ t', t = '-' :: t'
      · obtain ⟨t', rfl⟩ := ht
        rw [strBytes_hyphen] at *
        cases ht' : strBytes t' with
        | nil =>
          cases t' with
          | nil => exact .inl rfl
          | cons c t' => rw [strBytes_cons] at ht'; simp at ht'
        | cons b bs => exact absurd (by rw [ht']) (h3 b bs)
      · exact .inr fun t' e => ht ⟨t', e⟩

theorem clapGo_means {args : List OsStr} {fs : List CliFlag} {ts : List Str}
    (h : LineMeans args fs ts) (s : ClapSeen) : clapGo false args s = s.add fs ts := by
  induction h generalizing s with
  | done => rw [ClapSeen.add_nil]; rfl
  | word hw _ ih =>
    rw [clapGo_word hw, ← ClapSeen.add_add]
    congr 1; funext s'; exact ih s'
  | dashes ts => rw [← clapGo_true]; simp [clapGo]

theorem clapGo_inv : ∀ {args : List OsStr} {s s' : ClapSeen}, clapGo false args s = some s' →
    ∃ fs ts, LineMeans args fs ts
  | [], _, _, _ => ⟨[], [], .done⟩
  | a :: as, s, s', h => by
    rcases clapGo_word_inv h with ⟨rfl, h⟩ | ⟨fs, ts, hw⟩
    · obtain ⟨ts, rfl⟩ := clapGo_true_inv h
      exact ⟨[], ts, .dashes ts⟩
    · rw [clapGo_word hw] at h
      cases hs : s.add fs ts with
      | none => rw [hs] at h; simp at h
      | some s1 =>
        rw [hs] at h
        obtain ⟨gs, us, hl⟩ := clapGo_inv (s := s1) (s' := s') h
        exact ⟨_, _, .word hw hl⟩

theorem nodup_flags (fs : List CliFlag) :
    fs.Nodup ↔ fs.count .debug ≤ 1 ∧ fs.count .preset ≤ 1 ∧ fs.count .neologdn ≤ 1 := by
  rw [List.nodup_iff_count]
  constructor
  · exact fun h => ⟨h _, h _, h _⟩
  · rintro ⟨h1, h2, h3⟩ f
    cases f <;> assumption

/-- C82, exactly: the program starts with these options if and only if the arguments are long flags,
letters after a hyphen and plain texts in any order, then perhaps `--` and any text; no flag is given
twice, there is at most one text, and the options are what was given.  Otherwise it ends without
normalising anything. -/
theorem C82_exact (args : List OsStr) (opts : CliOpts) :
    clapParse args = some opts ↔ GivesOptions args opts := by
  have key : ∀ fs ts, LineMeans args fs ts → (clapParse args = some opts ↔
      fs.Nodup ∧ ts.length ≤ 1 ∧ opts.input = ts.head? ∧
      (opts.debug = true ↔ .debug ∈ fs) ∧ (opts.preset = true ↔ .preset ∈ fs) ∧
      (opts.neologdn = true ↔ .neologdn ∈ fs)) := by
    intro fs ts h
    rw [clapParse, clapGo_means h, nodup_flags]
    cases opts with
    | mk i d p n =>
      by_cases hl : ts.length ≤ 1
      · simp only [ClapSeen.add, Option.toList_none, List.nil_append, hl, if_true, Nat.zero_add,
          Option.bind_eq_bind, Option.bind_some, Option.ite_none_right_eq_some, Option.some.injEq,
          CliOpts.mk.injEq, true_and, ← List.count_pos_iff (l := fs)]
        constructor
        · rintro ⟨h1, h2, rfl, rfl, rfl⟩
          simp [h1, h2]
        · rintro ⟨h1, h2, h3, h4, h5⟩
          refine ⟨h1, h2.symm, ?_, ?_, ?_⟩
          · rw [Bool.eq_iff_iff, decide_eq_true_iff]; exact h3.symm
          · rw [Bool.eq_iff_iff, decide_eq_true_iff]; exact h4.symm
          · rw [Bool.eq_iff_iff, decide_eq_true_iff]; exact h5.symm
      · simp [ClapSeen.add, hl]
  constructor
  · intro h
    have h' := h
    simp only [clapParse, Option.bind_eq_bind, Option.bind_eq_some_iff] at h
    obtain ⟨s, hs, -⟩ := h
    obtain ⟨fs, ts, hl⟩ := clapGo_inv hs
    exact ⟨fs, ts, hl, (key fs ts hl).1 h'⟩
  · rintro ⟨fs, ts, hl, h⟩
    exact (key fs ts hl).2 h

theorem WordMeans.not_dashes {a : OsStr} {fs : List CliFlag} {ts : List Str}
    (h : WordMeans a fs ts) : a ≠ p! "--" := by
  cases h with
  | long f => cases f <;> decide
  | letters f fs => cases f <;> simp [CliFlag.letter]
  | text t ht =>
    intro e
    obtain ⟨t', rfl, e'⟩ := hyphen_head e
    rcases ht with ht | ht
    · cases ht; simp [strBytes] at e'
    · exact ht t' rfl

theorem LineMeans.cons_inv {a : OsStr} {as : List OsStr} {fs : List CliFlag} {ts : List Str}
    (h : LineMeans (a :: as) fs ts) (hn : a ≠ p! "--") : ∃ fs1 ts1 fs2 ts2, WordMeans a fs1 ts1 ∧
      LineMeans as fs2 ts2 ∧ fs = fs1 ++ fs2 ∧ ts = ts1 ++ ts2 := by
  cases h with
  | word hw hl => exact ⟨_, _, _, _, hw, hl, rfl, rfl⟩
  | dashes ts => exact absurd rfl hn

theorem CliFlag.letters_utf8 (fs : List CliFlag) : ∃ s : Str, fs.map CliFlag.letter = strBytes s := by
  induction fs with
  | nil => exact ⟨[], rfl⟩
  | cons f fs ih =>
    obtain ⟨s, hs⟩ := ih
    have : ∃ c, [f.letter] = String.utf8EncodeChar c := by
      cases f
      · exact ⟨'d', by decide +kernel⟩
      · exact ⟨'p', by decide +kernel⟩
      · exact ⟨'n', by decide +kernel⟩
    obtain ⟨c, hc⟩ := this
    exact ⟨c :: s, by rw [strBytes_cons, ← hc, List.map_cons, hs]; rfl⟩

theorem WordMeans.utf8 {a : OsStr} {fs : List CliFlag} {ts : List Str} (h : WordMeans a fs ts) :
    IsUtf8 a := by
  cases h with
  | long f =>
    cases f
    · exact ⟨c! "--debug", by decide +kernel⟩
    · exact ⟨c! "--preset", by decide +kernel⟩
    · exact ⟨c! "--neologdn", by decide +kernel⟩
  | letters f fs =>
    obtain ⟨s, hs⟩ := CliFlag.letters_utf8 (f :: fs)
    exact ⟨'-' :: s, by rw [strBytes_hyphen, hs]; rfl⟩
  | text t => exact ⟨t, rfl⟩

theorem LineMeans.perm {as bs : List OsStr} (hp : as.Perm bs) (hn : p! "--" ∉ as)
    {fs : List CliFlag} {ts : List Str} (h : LineMeans as fs ts) :
    ∃ gs us, LineMeans bs gs us ∧ fs.Perm gs ∧ ts.Perm us := by
  induction hp generalizing fs ts with
  | nil => exact ⟨fs, ts, h, .refl _, .refl _⟩
  | cons a hp ih =>
    cases h with
    | word hw hl =>
      obtain ⟨gs, us, h1, h2, h3⟩ := ih (fun hm => hn (List.mem_cons_of_mem _ hm)) hl
      exact ⟨_, _, .word hw h1, h2.append_left _, h3.append_left _⟩
    | dashes ts => simp at hn
  | swap a b l =>
    obtain ⟨f1, t1, f2, t2, hw, hl, rfl, rfl⟩ := h.cons_inv (fun e => hn (e ▸ .head _))
    obtain ⟨f3, t3, f4, t4, hw', hl', rfl, rfl⟩ :=
      hl.cons_inv (fun e => hn (e ▸ .tail _ (.head _)))
    refine ⟨_, _, .word hw' (.word hw hl'), ?_, ?_⟩
    all_goals
      rw [← List.append_assoc, ← List.append_assoc]
      exact List.perm_append_comm.append_right _
  | trans h1 _ ih1 ih2 =>
    obtain ⟨gs, us, hl, h3, h4⟩ := ih1 hn h
    obtain ⟨gs', us', hl', h5, h6⟩ := ih2 (fun hm => hn (h1.mem_iff.2 hm)) hl
    exact ⟨gs', us', hl', h3.trans h5, h4.trans h6⟩

/-- C82: without `--` the order of the arguments does not matter. -/
theorem C82_order (as bs : List OsStr) (hp : as.Perm bs) (hn : p! "--" ∉ as) :
    clapParse as = clapParse bs := by
  have one : ∀ {as bs : List OsStr}, as.Perm bs → p! "--" ∉ as → ∀ opts, clapParse as = some opts →
      clapParse bs = some opts := by
    intro as bs hp hn opts h
    rw [C82_exact] at h ⊢
    obtain ⟨fs, ts, hl, h1, h2, h3, h4, h5, h6⟩ := h
    obtain ⟨gs, us, hl', hf, ht⟩ := hl.perm hp hn
    refine ⟨gs, us, hl', hf.nodup_iff.1 h1, ht.length_eq ▸ h2, ?_, ?_, ?_, ?_⟩
    · rw [h3]
      match ts, h2 with
      | [], _ => rw [List.nil_perm.1 ht]
      | [t], _ => rw [List.singleton_perm.1 ht]
    · rw [h4, hf.mem_iff]
    · rw [h5, hf.mem_iff]
    · rw [h6, hf.mem_iff]
  ext opts
  exact ⟨one hp hn opts, one hp.symm (fun h => hn (hp.mem_iff.2 h)) opts⟩

theorem pn_means : WordMeans (p! "-pn") [.preset, .neologdn] [] := WordMeans.letters .preset [.neologdn]

theorem debug_means : WordMeans (p! "--debug") [.debug] [] := WordMeans.long .debug

/-- C82: a text that does not look like a flag is taken as it is, and after `--` every text is, with or
without flags before; without `--` a text of several characters starting with a hyphen is never what is
normalised. -/
theorem C82_text (s : Str) :
    clapParse [p! "--", strBytes s] = some ⟨some s, false, false, false⟩ ∧
    clapParse [p! "-pn", p! "--", strBytes s] = some ⟨some s, false, true, true⟩ ∧
    (PlainWord s → clapParse [strBytes s] = some ⟨some s, false, false, false⟩) ∧
    (¬ PlainWord s → ∀ args opts, p! "--" ∉ args → clapParse args = some opts →
      opts.input ≠ some s) := by
  refine ⟨?_, ?_, ?_, ?_⟩
  · exact (C82_exact _ _).2 ⟨[], [s], .dashes [s], by simp⟩
  · exact (C82_exact _ _).2 ⟨[.preset, .neologdn] ++ [], [] ++ [s],
      .word pn_means (.dashes [s]), by simp⟩
  · intro h
    exact (C82_exact _ _).2 ⟨[] ++ [], [s] ++ [], .word (.text s h) .done, by simp⟩
  · intro h args opts hn ho e
    obtain ⟨fs, ts, hl, -, -, hi, -⟩ := (C82_exact _ _).1 ho
    rw [e] at hi
    have hm : s ∈ ts := List.mem_of_mem_head? hi.symm
    clear hi e ho
    induction hl with
    | done => simp at hm
    | word hw _ ih =>
      rcases List.mem_append.1 hm with hm | hm
      · cases hw with
        | long => simp at hm
        | letters => simp at hm
        | text t ht => simp only [List.mem_singleton] at hm; exact h (hm ▸ ht)
      · exact ih (fun h => hn (List.mem_cons_of_mem _ h)) hm
    | dashes ts => simp at hn

/-- C82: what is rejected, whatever else is on the command line: a flag given twice in whatever
notation, two texts, anything else starting with a hyphen, a text that is not valid UTF-8. -/
theorem C82_rejected (args : List OsStr) :
    (∀ fs ts, LineMeans args fs ts → (¬ fs.Nodup ∨ 1 < ts.length) → clapParse args = none) ∧
    (∀ a ∈ args, p! "--" ∉ args → (¬ ∃ fs ts, WordMeans a fs ts) → clapParse args = none) ∧
    (∀ a ∈ args, ¬ IsUtf8 a → clapParse args = none) := by
  refine ⟨?_, ?_, ?_⟩
  · intro fs ts hl h
    rw [clapParse, clapGo_means hl]
    by_cases ht : ts.length ≤ 1
    · have hd : ¬ fs.Nodup := h.resolve_right (by omega)
      rw [nodup_flags] at hd
      simp [ClapSeen.add, ht, hd]
    · simp [ClapSeen.add, ht]
  · intro a ha hn h
    rw [Option.eq_none_iff_forall_ne_some]
    intro opts ho
    obtain ⟨fs, ts, hl, -⟩ := (C82_exact _ _).1 ho
    clear ho
    induction hl with
    | done => simp at ha
    | word hw _ ih =>
      rcases List.mem_cons.1 ha with rfl | ha
      · exact h ⟨_, _, hw⟩
      · exact ih ha (fun h => hn (List.mem_cons_of_mem _ h))
    | dashes ts => simp at hn
  · intro a ha h
    rw [Option.eq_none_iff_forall_ne_some]
    intro opts ho
    obtain ⟨fs, ts, hl, -⟩ := (C82_exact _ _).1 ho
    clear ho
    induction hl with
    | done => simp at ha
    | word hw _ ih =>
      rcases List.mem_cons.1 ha with rfl | ha
      · exact h hw.utf8
      · exact ih ha
    | dashes ts =>
      rcases List.mem_cons.1 ha with rfl | ha
      · exact h ⟨['-', '-'], by decide +kernel⟩
      · obtain ⟨t, -, rfl⟩ := List.mem_map.1 ha
        exact h ⟨t, rfl⟩

/-- C82: the whole program, from the command line to what it prints.  Arguments that give no options
end it before anything is read; otherwise, if the rc files load and `-d` is not given, it prints what
the rc files, then the preset if asked for, then neologdn if asked for, make of the text. -/
theorem C82_program (σ : Oracle) (σs : Nat → Oracle) (w : World) (args : List OsStr)
    (stdin : Except Str (List UInt8)) :
    ((¬ ∃ opts, GivesOptions args opts) → cliProgram σ σs w args stdin = none) ∧
    (∀ opts, GivesOptions args opts →
      cliProgram σ σs w args stdin = some (cliMain σ σs w opts stdin) ∧
      ∀ input c, CliInput opts stdin input → Chanoma.loadRc σ w = .ok c → opts.debug = false →
        ∃ out, c.normalize σs false input = .ok out ∧ cliProgram σ σs w args stdin =
          some (.ok ((cliCalls σ opts).foldl Call.meaning out ++ ['\n']))) := by
  constructor
  · intro h
    have : clapParse args = none := by
      rw [Option.eq_none_iff_forall_ne_some]
      exact fun opts ho => h ⟨opts, (C82_exact _ _).1 ho⟩
    simp [cliProgram, this]
  · intro opts h
    have hp : cliProgram σ σs w args stdin = some (cliMain σ σs w opts stdin) := by
      simp [cliProgram, (C82_exact _ _).2 h]
    refine ⟨hp, fun input c hi hc hd => ?_⟩
    obtain ⟨out, h1, h2⟩ := C45_prints_normalised σ σs w opts stdin input hi c hc hd
    exact ⟨out, h1, by rw [hp, h2]⟩

/-! Examples: `chanoma -pn ﾊﾝｶｸ --debug`, and what is rejected. -/

example : GivesOptions [p! "-pn", strBytes (c! "ﾊﾝｶｸ"), p! "--debug"]
    ⟨some (c! "ﾊﾝｶｸ"), true, true, true⟩ :=
  ⟨[.preset, .neologdn] ++ ([] ++ ([.debug] ++ [])), [] ++ ([c! "ﾊﾝｶｸ"] ++ ([] ++ [])),
    .word pn_means
      (.word (.text _ (.inr fun t e => by injection e with e; revert e; decide))
        (.word debug_means .done)),
    by decide, by decide, rfl, by decide, by decide, by decide⟩

example : clapParse [p! "-p", p! "a", p! "--preset"] = none := by decide +kernel
example : clapParse [p! "a", p! "b"] = none := by decide +kernel
example : clapParse [p! "-1"] = none := by decide +kernel
example : clapParse [p! "--help"] = none := by decide +kernel
example : (clapParse [p! "--", p! "-1"]).isSome = true := by decide +kernel
example : ¬ PlainWord (c! "-1") := by
  rintro (h | h)
  · revert h; decide
  · exact h ['1'] rfl

example : ¬ ∃ fs ts, WordMeans (p! "-1") fs ts := by
  rintro ⟨fs, ts, h⟩
  generalize ha : p! "-1" = a at h
  cases h with
  | long f => cases f <;> exact absurd ha (by decide)
  | letters f fs => cases f <;> simp [CliFlag.letter] at ha
  | text t ht =>
    obtain rfl := strBytes_inj (s := c! "-1") (t := t) ha
    rcases ht with h | h
    · revert h; decide
    · exact h ['1'] rfl

end Chanoma
