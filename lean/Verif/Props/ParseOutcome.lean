import Verif.Props.Parse
import Verif.Spec.Parse
/-! # C42, C43: the outcome of parsing every modifier string -/

namespace Chanoma

/-! ## Lemmas -/

theorem pieces_iff {c : Char} {s : Str} {parts : List Str} :
    Pieces c s parts ↔ parts = splitChar c s := by
  constructor
  · rintro ⟨h1, h2, rfl⟩
    exact (splitChar_intercalate parts h1 h2).symm
  · rintro rfl
    have key : ∀ s : Str, ∃ p ps, splitChar c s = p :: ps ∧ c ∉ p ∧ (∀ q ∈ ps, c ∉ q) ∧
        s = [c].intercalate (p :: ps) := by
      intro s
      induction s with
      | nil => exact ⟨[], [], rfl, by simp, by simp, rfl⟩
      | cons x s ih =>
        obtain ⟨p, ps, h1, h2, h3, h4⟩ := ih
        rw [splitChar]
        by_cases hx : x = c
        · subst hx
          rw [if_pos rfl, h1]
          refine ⟨[], p :: ps, rfl, by simp, ?_, ?_⟩
          · intro q hq
            rcases List.mem_cons.mp hq with rfl | hq
            · exact h2
            · exact h3 q hq
          · conv => lhs; rw [h4]
            simp [List.intercalate, List.intersperse]
        · rw [if_neg hx, h1]
          refine ⟨x :: p, ps, rfl, by simp [Ne.symm hx, h2], h3, ?_⟩
          conv => lhs; rw [h4]
          cases ps <;> simp [List.intercalate, List.intersperse]
    obtain ⟨p, ps, h1, h2, h3, h4⟩ := key s
    rw [h1]
    exact ⟨by simp, fun q hq => (List.mem_cons.mp hq).elim (fun e => e ▸ h2) (h3 q), h4⟩

theorem blank_or (s : Str) : (∀ c ∈ s, isWhitespace c = true) ∨
    ∃ ws c r, s = ws ++ c :: r ∧ (∀ x ∈ ws, isWhitespace x = true) ∧ isWhitespace c = false := by
  induction s with
  | nil => exact .inl (by simp)
  | cons x s ih =>
    cases hx : isWhitespace x with
    | false => exact .inr ⟨[], x, s, rfl, by simp, hx⟩
    | true =>
      rcases ih with h | ⟨ws, c, r, rfl, h1, h2⟩
      · exact .inl (by simpa [hx] using h)
      · exact .inr ⟨x :: ws, c, r, rfl, by simpa [hx] using h1, h2⟩

theorem firstVisible_blank_append {a : Str} (ha : ∀ c ∈ a, isWhitespace c = true) (s : Str) :
    firstVisible (a ++ s) = firstVisible s := by
  induction a with
  | nil => rfl
  | cons x a ih =>
    have := ih fun c hc => ha c (by simp [hc])
    simp only [firstVisible_eq] at this ⊢
    rw [List.cons_append, List.find?_cons, ha x (by simp)]
    simpa using this

theorem firstVisible_append_blank {b : Str} (hb : ∀ c ∈ b, isWhitespace c = true) (s : Str) :
    firstVisible (s ++ b) = firstVisible s := by
  have h0 : firstVisible b = none := by
    have := firstVisible_blank_append hb []
    rw [List.append_nil] at this
    rw [this]; rfl
  simp only [firstVisible_eq] at h0 ⊢
  rw [List.find?_append, h0]
  cases List.find? (fun c => !isWhitespace c) s <;> rfl

theorem strTrim_parts (s : Str) : ∃ a b, s = a ++ strTrim s ++ b ∧
    (∀ c ∈ a, isWhitespace c = true) ∧ ∀ c ∈ b, isWhitespace c = true := by
  have key : ∀ s : Str, ∃ a, s = a ++ s.dropWhile isWhitespace ∧ ∀ c ∈ a, isWhitespace c = true := by
    intro s
    refine ⟨s.takeWhile isWhitespace, (List.takeWhile_append_dropWhile).symm, fun c hc => ?_⟩
    exact List.all_eq_true.mp (List.all_takeWhile (l := s)) c hc
  obtain ⟨a, h1, h2⟩ := key s
  obtain ⟨b, h3, h4⟩ := key (s.dropWhile isWhitespace).reverse
  refine ⟨a, b.reverse, ?_, h2, fun c hc => h4 c (List.mem_reverse.mp hc)⟩
  have h5 := congrArg List.reverse h3
  rw [List.reverse_reverse, List.reverse_append] at h5
  unfold strTrim
  rw [List.append_assoc, ← h5]
  exact h1

theorem strTrim_head (s : Str) : (strTrim s).head? = firstVisible s := by
  rcases blank_or s with h | ⟨ws, c, r, rfl, h1, h2⟩
  · have h1 : s.dropWhile isWhitespace = [] := by
      have := dropWhile_blank (rest := []) h
      rwa [List.append_nil] at this
    have h2 := firstVisible_blank_append h []
    rw [List.append_nil] at h2
    rw [h2]
    unfold strTrim
    rw [h1]; rfl
  · rw [strTrim_eq h1 h2, firstVisible_blank_append h1]
    simp [firstVisible_eq, h2]

theorem splitChar_prefix {c : Char} {a : Str} (ha : c ∉ a) (s : Str) :
    ∃ p ps, splitChar c s = p :: ps ∧ splitChar c (a ++ s) = (a ++ p) :: ps := by
  induction a with
  | nil =>
    obtain ⟨h, -, -⟩ := (pieces_iff (c := c) (s := s)).mpr rfl
    obtain ⟨p, ps, hp⟩ := List.exists_cons_of_ne_nil h
    exact ⟨p, ps, hp, hp⟩
  | cons x a ih =>
    simp only [List.mem_cons, not_or] at ha
    obtain ⟨p, ps, h1, h2⟩ := ih ha.2
    exact ⟨p, ps, h1, by rw [List.cons_append, splitChar, if_neg (fun e => ha.1 e.symm), h2]; rfl⟩

theorem splitChar_suffix {c : Char} {b : Str} (hb : c ∉ b) (s : Str) :
    ∃ ps p, splitChar c s = ps ++ [p] ∧ splitChar c (s ++ b) = ps ++ [p ++ b] := by
  induction s with
  | nil => exact ⟨[], [], rfl, by rw [List.nil_append, splitChar_notMem hb]; rfl⟩
  | cons x s ih =>
    obtain ⟨ps, p, h1, h2⟩ := ih
    rw [List.cons_append, splitChar, splitChar, h1, h2]
    by_cases hx : x = c
    · exact ⟨[] :: ps, p, by rw [if_pos hx]; rfl, by rw [if_pos hx]; rfl⟩
    · rw [if_neg hx, if_neg hx]
      cases ps with
      | nil => exact ⟨[], x :: p, rfl, rfl⟩
      | cons q ps => exact ⟨(x :: q) :: ps, p, rfl, rfl⟩

theorem blank_notMem {a : Str} (ha : ∀ c ∈ a, isWhitespace c = true) : ':' ∉ a :=
  fun h => absurd (ha _ h) (by decide)

theorem converterEntry_iff (entry : Str) (a b : Char) :
    converterEntry entry = some (a, b) ↔ EntryPair entry a b := by
  have e : (splitChar ':' (strTrim entry)).filterMap (fun c => (strTrim c).head?) =
      (splitChar ':' entry).filterMap firstVisible := by
    have e1 : (fun c => (strTrim c).head?) = firstVisible := funext strTrim_head
    rw [e1]
    obtain ⟨x, y, h, hx, hy⟩ := strTrim_parts entry
    obtain ⟨p, ps, h1, h2⟩ := splitChar_prefix (blank_notMem hx) (strTrim entry ++ y)
    obtain ⟨qs, q, h3, h4⟩ := splitChar_suffix (blank_notMem hy) (strTrim entry)
    conv => rhs; rw [h]
    rw [List.append_assoc, h2, List.filterMap_cons, firstVisible_blank_append hx, ← List.filterMap_cons,
      ← h1, h4, h3]
    simp only [List.filterMap_append, List.filterMap_cons, firstVisible_append_blank hy]
  unfold converterEntry EntryPair
  simp only [pieces_iff, exists_eq_left]
  rw [e]
  generalize (splitChar ':' entry).filterMap firstVisible = l
  constructor
  · intro h
    split at h
    · cases h; rfl
    · cases h
  · rintro rfl; rfl

theorem entryPairs_iff (es : List Str) (ps : List (Char × Char)) :
    EntryPairs es ps ↔ ps = es.filterMap converterEntry := by
  induction es generalizing ps with
  | nil =>
    constructor
    · rintro ⟨⟩; rfl
    · rintro rfl; exact .nil
  | cons e es ih =>
    cases he : converterEntry e with
    | none =>
      have hno : ¬ ∃ a b, EntryPair e a b := by
        rintro ⟨a, b, h⟩
        rw [← converterEntry_iff, he] at h
        cases h
      rw [List.filterMap_cons, he]
      constructor
      · intro h
        cases h with
        | pair h1 _ => exact absurd ⟨_, _, h1⟩ hno
        | skip _ h1 => exact (ih _).mp h1
      · intro h; exact .skip hno ((ih _).mpr h)
    | some ab =>
      obtain ⟨a, b⟩ := ab
      have hab := (converterEntry_iff e a b).mp he
      rw [List.filterMap_cons, he]
      constructor
      · intro h
        cases h with
        | pair h1 h2 =>
          rw [← converterEntry_iff, he] at h1
          cases h1
          rw [(ih _).mp h2]
        | skip h1 _ => exact absurd ⟨_, _, hab⟩ h1
      · rintro rfl; exact .pair hab ((ih _).mpr rfl)

/-! ## The outcome for every argument -/

/-- C42, C43: every string has exactly one division into pieces, and the pieces give exactly one list of
pairs. -/
theorem C42_pieces_unique (sep : Char) (s : Str) :
    (∃ parts, Pieces sep s parts ∧ ∀ parts', Pieces sep s parts' → parts' = parts) ∧
    ∀ entries, ∃ pairs, EntryPairs entries pairs ∧ ∀ pairs', EntryPairs entries pairs' → pairs' = pairs :=
  ⟨⟨_, pieces_iff.mpr rfl, fun _ h => pieces_iff.mp h⟩,
    fun _ => ⟨_, (entryPairs_iff _ _).mpr rfl, fun _ h => (entryPairs_iff _ _).mp h⟩⟩

/-- C42, C43: `character_eliminator(…)` with any argument: the pieces between commas give the
characters to delete, blank pieces are skipped; if all are blank, an error. -/
theorem C42_eliminator_any (σ : Oracle) (arg : Str) (parts : List Str) (h : Pieces ',' arg parts) :
    (parts.filterMap firstVisible = [] →
      ModifierKind.fromStr σ (c! "character_eliminator(" ++ (arg ++ [')'])) =
        .err (.modifierKindParse (c! "require value."))) ∧
    (parts.filterMap firstVisible ≠ [] → ∃ m,
      ModifierKind.fromStr σ (c! "character_eliminator(" ++ (arg ++ [')'])) = .ok m ∧
      ∀ τ text, m.modify τ text = .ok (text.filter fun c => c ∉ parts.filterMap firstVisible)) := by
  rw [pieces_iff] at h
  have e1 : (fun c => (strTrim c).head?) = firstVisible := funext strTrim_head
  rw [fromStr_eliminator, parenArg_ok, Outcome.ok_bind]
  unfold CharacterEliminator.fromStr
  rw [← h, e1]
  simp only
  constructor
  · intro h0
    rw [h0]; rfl
  · intro h0
    rw [if_neg (by simpa using h0)]
    obtain ⟨-, h2⟩ := realizes_eliminate (parts.filterMap firstVisible)
    refine ⟨_, rfl, fun τ text => ?_⟩
    obtain ⟨o, h3, h4⟩ := h2 τ text
    rw [h3]
    exact congrArg _ h4

/-- C42, C43: `character_converter(…)` with any argument: the pieces between commas that are pairs
`a : b` give the replacements, the others are skipped; if there is no pair, an error. -/
theorem C42_converter_any (σ : Oracle) (arg : Str) (parts : List Str) (pairs : List (Char × Char))
    (h : Pieces ',' arg parts) (hp : EntryPairs parts pairs) :
    (pairs = [] →
      ModifierKind.fromStr σ (c! "character_converter(" ++ (arg ++ [')'])) =
        .err (.modifierKindParse (c! "specified empty chars."))) ∧
    (pairs ≠ [] → ∃ m,
      ModifierKind.fromStr σ (c! "character_converter(" ++ (arg ++ [')'])) = .ok m ∧
      ∀ τ text, m.modify τ text = .ok (substitute (lastPair pairs) text)) := by
  rw [pieces_iff] at h
  rw [entryPairs_iff] at hp
  rw [fromStr_converter, parenArg_ok, Outcome.ok_bind]
  unfold CharacterConverter.fromStr
  rw [← h, ← hp]
  simp only
  constructor
  · intro h0
    rw [h0]; rfl
  · intro h0
    rw [if_neg (by simpa using h0)]
    obtain ⟨-, h2⟩ := realizes_convert pairs
    refine ⟨_, rfl, fun τ text => ?_⟩
    obtain ⟨o, h3, h4⟩ := h2 τ text
    rw [h3]
    exact congrArg _ h4

/-- C42, C43: `ligature_translator(…)` with an argument that does not have exactly one comma is an
error. -/
theorem C43_ligature_other (σ : Oracle) (arg : Str)
    (h : ¬ ∃ f t, ',' ∉ f ∧ ',' ∉ t ∧ arg = f ++ ',' :: t) :
    ModifierKind.fromStr σ (c! "ligature_translator(" ++ (arg ++ [')'])) =
      .err (.modifierKindParse (c! "Only two values.")) := by
  rw [fromStr_ligature, parenArg_ok, Outcome.ok_bind]
  unfold LigatureTranslator.fromStr
  split
  · rename_i f t hs
    obtain ⟨-, h2, h3⟩ := pieces_iff.mpr hs.symm
    refine absurd ⟨f, t, h2 f (by simp), h2 t (by simp), ?_⟩ h
    rw [h3]
    simp [List.intercalate, List.intersperse]
  · rfl

/-- Pieces, blank pieces and pieces that are no pairs. -/
example : Pieces ',' (c! " a b,, ,c") [c! " a b", [], c! " ", c! "c"] ∧
    [c! " a b", [], c! " ", c! "c"].filterMap firstVisible = [c! "a", c! "c"].flatten := by
  refine ⟨⟨by decide, by decide, by decide⟩, by decide⟩
example : EntryPair (c! " : ａ x: :b") 'ａ' 'b' :=
  ⟨[c! " ", c! " ａ x", c! " ", c! "b"], ⟨by decide, by decide, by decide⟩, by decide⟩

end Chanoma
