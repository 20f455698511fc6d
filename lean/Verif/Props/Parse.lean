import Verif.Proofs.Parse
/-! # C42, C43: parsing modifier strings -/

namespace Chanoma

/-! ## C42 -/

/-- An entry of a list: white space, then a character that is not white space, then the rest of
the entry, which does not matter. -/
structure Entry1 where
  blank : Str
  char : Char
  rest : Str

/-- The text of an entry. -/
def Entry1.text (e : Entry1) : Str := e.blank ++ e.char :: e.rest

/-- An entry is free of the separators and its parts are as described. -/
def Entry1.Fine (seps : List Char) (e : Entry1) : Prop :=
  (∀ c ∈ e.blank, c ∈ whiteSpace) ∧ e.char ∉ whiteSpace ∧ ∀ c ∈ seps, c ∉ e.text

theorem Entry1.Fine.ws {seps : List Char} {e : Entry1} (h : e.Fine seps) :
    (∀ c ∈ e.blank, isWhitespace c = true) ∧ isWhitespace e.char = false ∧ ∀ c ∈ seps, c ∉ e.text :=
  ⟨fun c hc => (isWhitespace_iff c).mpr (h.1 c hc), (not_isWhitespace_iff _).mpr h.2.1, h.2.2⟩

theorem Entry1.head {e : Entry1} {seps : List Char} (h : e.Fine seps) :
    (strTrim e.text).head? = some e.char := by
  unfold Entry1.text
  rw [strTrim_eq h.ws.1 h.ws.2.1]; rfl

theorem filterMap_heads (es : List Entry1) (seps : List Char) (h : ∀ e ∈ es, e.Fine seps) :
    (es.map Entry1.text).filterMap (fun st => (strTrim st).head?) = es.map (·.char) := by
  induction es with
  | nil => rfl
  | cons e es ih =>
    rw [List.map_cons, List.filterMap_cons, Entry1.head (h e (by simp)),
      ih fun e he => h e (by simp [he])]
    rfl

theorem eliminator_parsed (σ : Oracle) (es : List Entry1) (hne : es ≠ []) (h : ∀ e ∈ es, e.Fine [',']) :
    ModifierKind.fromStr σ
        (c! "character_eliminator(" ++ ([','].intercalate (es.map Entry1.text) ++ [')'])) =
      .ok (.characterEliminator (.fromChars (es.map (·.char)))) := by
  have hs : splitChar ',' ([','].intercalate (es.map Entry1.text)) = es.map Entry1.text := by
    apply splitChar_intercalate
    · simpa using hne
    · intro s hs
      obtain ⟨e, he, rfl⟩ := List.mem_map.mp hs
      exact (h e he).2.2 _ (by simp)
  rw [fromStr_eliminator, parenArg_ok, Outcome.ok_bind]
  unfold CharacterEliminator.fromStr
  rw [hs]
  simp only
  rw [filterMap_heads es _ h, if_neg (by cases es <;> simp_all)]
  rfl

/-- C42: `character_eliminator(a, b, …)`, with any white space around the characters, parses to the
modifier that deletes exactly these characters. -/
theorem C42_eliminator (σ : Oracle) (es : List Entry1) (hne : es ≠ []) (h : ∀ e ∈ es, e.Fine [',']) :
    ∃ m, ModifierKind.fromStr σ
        (c! "character_eliminator(" ++ ([','].intercalate (es.map Entry1.text) ++ [')'])) = .ok m ∧
      ∀ τ text, m.modify τ text = .ok (text.filter fun c => c ∉ es.map (·.char)) := by
  rw [eliminator_parsed σ es hne h]
  obtain ⟨-, h2⟩ := realizes_eliminate (es.map (·.char))
  refine ⟨_, rfl, fun τ text => ?_⟩
  obtain ⟨o, h3, h4⟩ := h2 τ text
  rw [h3]
  exact congrArg _ h4

theorem converter_parsed (σ : Oracle) (es : List (Entry1 × Entry1)) (hne : es ≠ [])
    (h : ∀ e ∈ es, e.1.Fine [',', ':'] ∧ e.2.Fine [',', ':']) :
    ModifierKind.fromStr σ (c! "character_converter(" ++
        ([','].intercalate (es.map fun e => e.1.text ++ ':' :: e.2.text) ++ [')'])) =
      .ok (.characterConverter (.fromMap (HMap.collect (es.map fun e => (e.1.char, e.2.char))))) := by
  have hs : splitChar ',' ([','].intercalate (es.map fun e => e.1.text ++ ':' :: e.2.text)) =
      es.map fun e => e.1.text ++ ':' :: e.2.text := by
    apply splitChar_intercalate
    · simpa using hne
    · intro s hs
      obtain ⟨e, he, rfl⟩ := List.mem_map.mp hs
      have h1 := (h e he).1.2.2 ',' (by simp)
      have h2 := (h e he).2.2.2 ',' (by simp)
      simp [h1, h2]
  have he : ∀ e ∈ es, converterEntry (e.1.text ++ ':' :: e.2.text) = some (e.1.char, e.2.char) := by
    intro e he
    obtain ⟨f, g⟩ := e
    have ⟨hf, hg⟩ := h _ he
    obtain ⟨f1, f2, f3⟩ := hf.ws
    obtain ⟨g1, g2, g3⟩ := hg.ws
    have e1 : strTrim (f.text ++ ':' :: g.text) =
        (f.char :: f.rest) ++ ':' :: (g.blank ++ g.char :: trimEndBlank g.rest) := by
      have : f.text ++ ':' :: g.text =
          f.blank ++ f.char :: ((f.rest ++ ':' :: g.blank) ++ g.char :: g.rest) := by
        simp [Entry1.text]
      rw [this, strTrim_eq f1 f2, trimEnd_append _ _ g2]
      simp
    have c1 : ':' ∉ f.char :: f.rest := by
      have := f3 ':' (by simp)
      simp only [Entry1.text, List.mem_append, not_or] at this
      exact this.2
    have c2 : ':' ∉ g.blank ++ g.char :: trimEndBlank g.rest := by
      have := g3 ':' (by simp)
      simp only [Entry1.text, List.mem_append, List.mem_cons, not_or] at this ⊢
      exact ⟨this.1, this.2.1, fun hc => this.2.2 (trimEnd_subset hc)⟩
    unfold converterEntry
    have t1 := strTrim_eq (ws := []) (s := f.rest) (by simp) f2
    rw [List.nil_append] at t1
    simp only
    rw [e1, splitChar_append c1, splitChar_notMem c2]
    simp only [List.filterMap_cons, List.filterMap_nil, t1, strTrim_eq g1 g2, List.head?_cons]
  have hf : (es.map fun e => e.1.text ++ ':' :: e.2.text).filterMap converterEntry =
      es.map fun e => (e.1.char, e.2.char) := by
    clear hs hne h
    induction es with
    | nil => rfl
    | cons e es ih =>
      rw [List.map_cons, List.filterMap_cons, he e (by simp), ih fun e h => he e (by simp [h])]
      rfl
  rw [fromStr_converter, parenArg_ok, Outcome.ok_bind]
  unfold CharacterConverter.fromStr
  rw [hs]
  simp only
  rw [hf, if_neg (by cases es <;> simp_all)]
  rfl

/-- C42: `character_converter(a: b, …)`, with any white space around the characters, parses to the
modifier that replaces every `a` by its `b`; of several pairs for one `a` the last one counts. -/
theorem C42_converter (σ : Oracle) (es : List (Entry1 × Entry1)) (hne : es ≠ [])
    (h : ∀ e ∈ es, e.1.Fine [',', ':'] ∧ e.2.Fine [',', ':']) :
    ∃ m, ModifierKind.fromStr σ (c! "character_converter(" ++
        ([','].intercalate (es.map fun e => e.1.text ++ ':' :: e.2.text) ++ [')'])) = .ok m ∧
      ∀ τ text, m.modify τ text = .ok (substitute (lastPair (es.map fun e => (e.1.char, e.2.char))) text) := by
  rw [converter_parsed σ es hne h]
  obtain ⟨-, h2⟩ := realizes_convert (es.map fun e => (e.1.char, e.2.char))
  refine ⟨_, rfl, fun τ text => ?_⟩
  obtain ⟨o, h3, h4⟩ := h2 τ text
  rw [h3]
  exact congrArg _ h4

/-- C42: `consecutive_character_reducer(c…)` parses to the reducer of its first character. -/
theorem C42_reducer (σ : Oracle) (c : Char) (rest : Str) :
    ∃ m, ModifierKind.fromStr σ (c! "consecutive_character_reducer(" ++ (c :: rest ++ [')'])) = .ok m ∧
      ∀ τ text, m.modify τ text = .ok (squeeze c text) := by
  rw [fromStr_reducer, parenArg_ok]
  refine ⟨_, rfl, fun τ text => ?_⟩
  obtain ⟨-, h2⟩ := realizes_reduce c
  obtain ⟨o, h3, h4⟩ := h2 τ text
  rw [h3]
  exact congrArg _ h4

/-- C42: `ligature_translator(f,t)` parses to the modifier that replaces `f` by `t`; white space
belongs to the strings. -/
theorem C42_ligature (σ : Oracle) (f t : Str) (hf : ',' ∉ f) (ht : ',' ∉ t) :
    ∃ m, ModifierKind.fromStr σ (c! "ligature_translator(" ++ (f ++ ',' :: t ++ [')'])) = .ok m ∧
      ∀ τ text, ∃ out, m.modify τ text = .ok out ∧ ReplacedAll f t text out := by
  rw [fromStr_ligature, parenArg_ok, Outcome.ok_bind]
  unfold LigatureTranslator.fromStr
  rw [splitChar_append hf, splitChar_notMem ht]
  refine ⟨_, rfl, fun τ text => ?_⟩
  obtain ⟨-, h2⟩ := realizes_ligature [(f, t)]
  obtain ⟨o, h3, order, h4, h5⟩ := h2 τ text
  refine ⟨o, h3, ?_⟩
  have : order = [(f, t)] := List.perm_singleton.mp h4
  subst this
  cases h5 with
  | cons h6 h7 => cases h7; exact h6

/-- C42: the names without parameter. -/
theorem C42_plain (σ : Oracle) :
    ModifierKind.fromStr σ (c! "trim") = .ok .trim ∧
    ModifierKind.fromStr σ (c! "dotted_space_eliminator") = .ok .dottedSpaceEliminator ∧
    ∃ m, ModifierKind.fromStr σ (c! "neologdn") = .ok m ∧
      ∀ τ text, m.modify τ text = .ok (neologdnSpec text) := by
  refine ⟨rfl, rfl, ?_⟩
  obtain ⟨x, h1, -, h2, -⟩ := neologdn_new σ
  refine ⟨.neologdn x, ?_, h2⟩
  unfold ModifierKind.fromStr
  rw [if_pos rfl, h1]
  rfl

example : (⟨c! " ", 'a', c! " "⟩ : Entry1).Fine [',', ':'] := by unfold Entry1.Fine; decide
example : (ModifierKind.fromStr .insertion (c! "character_converter(a: b, c :d)") >>= fun m =>
    m.modify .insertion (c! "abcd")) = .ok (c! "bbdd") := by decide +kernel
example : (ModifierKind.fromStr .insertion (c! "character_eliminator(), -)") >>= fun m =>
    m.modify .insertion (c! "a-b)c")) = .ok (c! "abc") := by decide +kernel

/-! ## C43 -/

/-- C43 (the full claim, that parsing never panics, is false): a string makes the parser panic
exactly if it starts with the name of a modifier with parameter and `(` but does not end with `)`, or
is `consecutive_character_reducer()`. -/
theorem C43_panics_iff (σ : Oracle) (s : Str) :
    ModifierKind.fromStr σ s = .panic ↔
      (∃ name ∈ parameterNames, ∃ rest, s = name ++ '(' :: rest ∧ rest.getLast? ≠ some ')') ∨
      s = c! "consecutive_character_reducer()" := by
  by_cases hpl : s ∈ plainNames
  · have h1 : ModifierKind.fromStr σ s ≠ .panic := by
      obtain ⟨ht, hd, m, hn, -⟩ := C42_plain σ
      simp only [plainNames, List.mem_cons, List.not_mem_nil, or_false] at hpl
      rcases hpl with rfl | rfl | rfl
      · rw [hd]; simp
      · rw [ht]; simp
      · rw [hn]; simp
    constructor
    · intro h; exact absurd h h1
    · intro h
      have : '(' ∉ s := by
        have : ∀ s ∈ plainNames, '(' ∉ s := by decide
        exact this s hpl
      rcases h with ⟨name, -, rest, rfl, -⟩ | rfl
      · exact absurd (by simp) this
      · exact absurd (by decide) this
  · by_cases hn : ∃ n ∈ parameterNames, ∃ r, s = n ++ '(' :: r
    · obtain ⟨n, hn, r, rfl⟩ := hn
      have huniq : ∀ {n' : Str}, n' ∈ parameterNames → ∀ {r' : Str}, n ++ '(' :: r = n' ++ '(' :: r' → r = r' := by
        intro n' hn' r' h
        have hno : ∀ n ∈ parameterNames, '(' ∉ n := by decide
        have h1 := splitChar_append (t := r) (hno n hn)
        have h2 := splitChar_append (t := r') (hno n' hn')
        rw [h, h2] at h1
        have : n' = n := by injection h1
        subst this
        exact (List.cons.inj (List.append_cancel_left h)).2
      have key : ((∃ name ∈ parameterNames, ∃ rest, n ++ '(' :: r = name ++ '(' :: rest ∧
          rest.getLast? ≠ some ')') ∨ n ++ '(' :: r = c! "consecutive_character_reducer()") ↔
          (r.getLast? ≠ some ')' ∨ n ++ '(' :: r = c! "consecutive_character_reducer()") := by
        constructor
        · rintro (⟨n', hn', r', h, h2⟩ | h)
          · rw [huniq hn' h]; exact .inl h2
          · exact .inr h
        · rintro (h | h)
          · exact .inl ⟨n, hn, r, rfl, h⟩
          · exact .inr h
      rw [key]
      simp only [parameterNames, List.mem_cons, List.not_mem_nil, or_false] at hn
      by_cases hl : r.getLast? = some ')'
      · obtain ⟨a, rfl⟩ := List.getLast?_eq_some_iff.mp hl
        rcases hn with rfl | rfl | rfl | rfl
        · have e := fromStr_converter σ (a ++ [')'])
          rw [parenArg_ok, Outcome.ok_bind] at e
          simp only [List.cons_append, List.nil_append] at e ⊢
          rw [e]
          unfold CharacterConverter.fromStr
          simp only
          split <;> simp
        · have e := fromStr_eliminator σ (a ++ [')'])
          rw [parenArg_ok, Outcome.ok_bind] at e
          simp only [List.cons_append, List.nil_append] at e ⊢
          rw [e]
          unfold CharacterEliminator.fromStr
          simp only
          split <;> simp
        · have e := fromStr_reducer σ (a ++ [')'])
          rw [parenArg_ok, Outcome.ok_bind] at e
          simp only [List.cons_append, List.nil_append] at e ⊢
          rw [e]
          cases a with
          | nil => simp [ConsecutiveCharacterReducer.fromStr, unwrap]
          | cons c a =>
            have : (c :: (a ++ [')'])).getLast? = some ')' := by rw [← List.cons_append]; exact hl
            simp [ConsecutiveCharacterReducer.fromStr, unwrap, this]
        · have e := fromStr_ligature σ (a ++ [')'])
          rw [parenArg_ok, Outcome.ok_bind] at e
          simp only [List.cons_append, List.nil_append] at e ⊢
          rw [e]
          unfold LigatureTranslator.fromStr
          split <;> simp
      · rcases hn with rfl | rfl | rfl | rfl
        · have e := fromStr_converter σ r
          rw [parenArg_panic _ _ hl] at e
          simp only [List.cons_append, List.nil_append] at e ⊢
          rw [e]; simp [hl]
        · have e := fromStr_eliminator σ r
          rw [parenArg_panic _ _ hl] at e
          simp only [List.cons_append, List.nil_append] at e ⊢
          rw [e]; simp [hl]
        · have e := fromStr_reducer σ r
          rw [parenArg_panic _ _ hl] at e
          simp only [List.cons_append, List.nil_append] at e ⊢
          rw [e]; simp [hl]
        · have e := fromStr_ligature σ r
          rw [parenArg_panic _ _ hl] at e
          simp only [List.cons_append, List.nil_append] at e ⊢
          rw [e]; simp [hl]
    · rw [fromStr_other σ s hpl fun n hn' r h => hn ⟨n, hn', r, h⟩]
      constructor
      · intro h; cases h
      · rintro (⟨n, h1, r, h2, -⟩ | h)
        · exact absurd ⟨n, h1, r, h2⟩ hn
        · exact absurd ⟨c! "consecutive_character_reducer", by decide, c! ")", h⟩ hn

/-- C43: every string that is neither a plain name nor starts with a name and `(` is an error. -/
theorem C43_unknown (σ : Oracle) (s : Str) (h1 : s ∉ plainNames)
    (h2 : ∀ name ∈ parameterNames, ∀ rest, s ≠ name ++ '(' :: rest) :
    ModifierKind.fromStr σ s = .err (.modifierKindParse (c! "parse error.")) := fromStr_other σ s h1 h2

/-- C43 refuted. -/
theorem C43_panics_exist (σ : Oracle) :
    ModifierKind.fromStr σ (c! "consecutive_character_reducer()") = .panic ∧
    ModifierKind.fromStr σ (c! "ligature_translator(a,b) ") = .panic ∧
    ModifierKind.fromStr σ (c! "character_converter(") = .panic := ⟨rfl, rfl, rfl⟩

example : c! "uppercase" ∉ plainNames ∧ ∀ name ∈ parameterNames, ¬ (name <+: c! "uppercase") := by decide

end Chanoma
