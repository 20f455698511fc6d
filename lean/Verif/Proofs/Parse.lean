import Verif.Proofs.Config
import Verif.Proofs.Path
import Verif.Model.Parse
import Verif.Spec.Parse
/-! # Lemmas about modifier strings -/

namespace Chanoma

theorem stripPrefix_append (p r : Str) : stripPrefix p (p ++ r) = some r := by
  induction p with
  | nil => cases r <;> rfl
  | cons a p ih => simp [stripPrefix, ih]

theorem stripSuffix_append (c : Char) (r : Str) : stripSuffixChar c (r ++ [c]) = some r := by
  simp [stripSuffixChar]

theorem stripSuffix_none (c : Char) (r : Str) (h : r.getLast? ≠ some c) : stripSuffixChar c r = none := by
  simp [stripSuffixChar, h]

theorem parenArg_ok (p r : Str) : parenArg p (p ++ (r ++ [')'])) = .ok r := by
  simp [parenArg, stripPrefix_append, stripSuffix_append, unwrap]

theorem parenArg_panic (p r : Str) (h : r.getLast? ≠ some ')') : parenArg p (p ++ r) = .panic := by
  simp [parenArg, stripPrefix_append, stripSuffix_none _ _ h, unwrap]

theorem isPrefixOf_append (p r : Str) : p.isPrefixOf (p ++ r) = true := by simp

theorem fromStr_reducer (σ : Oracle) (r : Str) :
    ModifierKind.fromStr σ (c! "consecutive_character_reducer(" ++ r) =
      (parenArg (c! "consecutive_character_reducer(") (c! "consecutive_character_reducer(" ++ r) >>= fun a =>
        ConsecutiveCharacterReducer.fromStr a >>= fun x => .ok (.consecutiveCharacterReducer x)) := by
  unfold ModifierKind.fromStr
  rw [if_neg (by simp), if_neg (by simp), if_neg (by simp), if_pos (by simp)]
  rfl

theorem fromStr_ligature (σ : Oracle) (r : Str) :
    ModifierKind.fromStr σ (c! "ligature_translator(" ++ r) =
      (parenArg (c! "ligature_translator(") (c! "ligature_translator(" ++ r) >>= fun a =>
        LigatureTranslator.fromStr a >>= fun x => .ok (.ligatureTranslator x)) := by
  unfold ModifierKind.fromStr
  rw [if_neg (by simp), if_neg (by simp), if_neg (by simp), if_neg (by simp), if_pos (by simp)]
  rfl

theorem fromStr_eliminator (σ : Oracle) (r : Str) :
    ModifierKind.fromStr σ (c! "character_eliminator(" ++ r) =
      (parenArg (c! "character_eliminator(") (c! "character_eliminator(" ++ r) >>= fun a =>
        CharacterEliminator.fromStr a >>= fun x => .ok (.characterEliminator x)) := by
  unfold ModifierKind.fromStr
  rw [if_neg (by simp), if_neg (by simp), if_neg (by simp), if_neg (by simp), if_neg (by simp),
    if_pos (by simp)]
  rfl

theorem fromStr_converter (σ : Oracle) (r : Str) :
    ModifierKind.fromStr σ (c! "character_converter(" ++ r) =
      (parenArg (c! "character_converter(") (c! "character_converter(" ++ r) >>= fun a =>
        CharacterConverter.fromStr a >>= fun x => .ok (.characterConverter x)) := by
  unfold ModifierKind.fromStr
  rw [if_neg (by simp), if_neg (by simp), if_neg (by simp), if_neg (by simp), if_neg (by simp),
    if_neg (by simp), if_pos (by simp)]
  rfl

/-- The four parameter names with an opening parenthesis. -/
theorem fromStr_other (σ : Oracle) (s : Str) (h1 : s ∉ plainNames)
    (h2 : ∀ n ∈ parameterNames, ∀ r, s ≠ n ++ '(' :: r) :
    ModifierKind.fromStr σ s = .err (.modifierKindParse (c! "parse error.")) := by
  have hp : ∀ p : Str, p.isPrefixOf s = true → ∃ r, s = p ++ r := by
    intro p hp
    obtain ⟨r, h⟩ := List.isPrefixOf_iff_prefix.mp hp
    exact ⟨r, h.symm⟩
  simp only [plainNames, parameterNames, List.mem_cons, List.not_mem_nil, or_false, not_or,
    forall_eq_or_imp, forall_eq] at h1 h2
  unfold ModifierKind.fromStr
  rw [if_neg h1.2.2, if_neg h1.2.1, if_neg h1.1, if_neg, if_neg, if_neg, if_neg]
  · intro h; obtain ⟨r, h⟩ := hp _ h; exact h2.1 r h
  · intro h; obtain ⟨r, h⟩ := hp _ h; exact h2.2.1 r h
  · intro h; obtain ⟨r, h⟩ := hp _ h; exact h2.2.2.2 r h
  · intro h; obtain ⟨r, h⟩ := hp _ h; exact h2.2.2.1 r h

/-! ## Splitting and trimming -/

theorem splitChar_notMem {c : Char} {s : Str} (h : c ∉ s) : splitChar c s = [s] := by
  induction s with
  | nil => rfl
  | cons x s ih =>
    simp only [List.mem_cons, not_or] at h
    rw [splitChar, if_neg (fun e => h.1 e.symm), ih h.2]

theorem splitChar_append {c : Char} {s t : Str} (h : c ∉ s) :
    splitChar c (s ++ c :: t) = s :: splitChar c t := by
  induction s with
  | nil => simp [splitChar]
  | cons x s ih =>
    simp only [List.mem_cons, not_or] at h
    rw [List.cons_append, splitChar, if_neg (fun e => h.1 e.symm), ih h.2]

theorem splitChar_intercalate {c : Char} (l : List Str) (hne : l ≠ []) (h : ∀ s ∈ l, c ∉ s) :
    splitChar c ([c].intercalate l) = l := by
  induction l with
  | nil => exact absurd rfl hne
  | cons a l ih =>
    cases l with
    | nil => simpa [List.intercalate] using splitChar_notMem (h a (by simp))
    | cons b l =>
      have e : [c].intercalate (a :: b :: l) = a ++ c :: [c].intercalate (b :: l) := by
        simp [List.intercalate, List.intersperse]
      rw [e, splitChar_append (h a (by simp)), ih (by simp) fun s hs => h s (by simp_all)]

theorem isWhitespace_iff (c : Char) : isWhitespace c = true ↔ c ∈ whiteSpace := by
  have h : ∀ d : Char, c = d ↔ c.toNat = d.toNat := fun d => Char.toNat_inj.symm
  simp only [isWhitespace, whiteSpace, List.mem_cons, List.not_mem_nil, h, Bool.or_eq_true, Bool.and_eq_true,
    decide_eq_true_eq, beq_iff_eq]
  simp only [Char.reduceToNat, or_false]
  omega

theorem not_isWhitespace_iff (c : Char) : isWhitespace c = false ↔ c ∉ whiteSpace := by
  rw [← isWhitespace_iff, Bool.not_eq_true]

theorem firstVisible_eq (s : Str) : firstVisible s = s.find? fun c => !isWhitespace c := by
  unfold firstVisible
  congr 1
  funext c
  rw [Bool.eq_iff_iff, decide_eq_true_iff, ← isWhitespace_iff]
  simp

theorem dropWhile_blank {ws rest : Str} (h : ∀ c ∈ ws, isWhitespace c = true) :
    (ws ++ rest).dropWhile isWhitespace = rest.dropWhile isWhitespace := by
  induction ws with
  | nil => rfl
  | cons a ws ih =>
    rw [List.cons_append, List.dropWhile_cons, if_pos (h a (by simp)), ih fun c hc => h c (by simp [hc])]

/-- Trimming a word whose ends are no white space. -/
theorem strTrim_word {a w b : Str} (ha : ∀ c ∈ a, isWhitespace c = true)
    (hb : ∀ c ∈ b, isWhitespace c = true) (h1 : ∀ c, w.head? = some c → isWhitespace c = false)
    (h2 : ∀ c, w.getLast? = some c → isWhitespace c = false) (hw : w ≠ []) :
    strTrim (a ++ (w ++ b)) = w := by
  have hd : ∀ {l m : Str}, l ≠ [] → (∀ c, l.head? = some c → isWhitespace c = false) →
      (l ++ m).dropWhile isWhitespace = l ++ m := by
    intro l m hl h
    cases l with
    | nil => exact absurd rfl hl
    | cons c l => rw [List.cons_append, List.dropWhile_cons, if_neg (by simp [h c rfl])]
  unfold strTrim
  rw [dropWhile_blank ha, hd hw h1, List.reverse_append,
    dropWhile_blank (fun c hc => hb c (List.mem_reverse.mp hc))]
  have : w.reverse.dropWhile isWhitespace = w.reverse := by
    have := hd (l := w.reverse) (m := []) (by simpa using hw) (by
      intro c hc; rw [List.head?_reverse] at hc; exact h2 c hc)
    simpa using this
  rw [this, List.reverse_reverse]

/-- Trimming the end. -/
def trimEndBlank (s : Str) : Str := (s.reverse.dropWhile isWhitespace).reverse

theorem trimEnd_append (u v : Str) {d : Char} (hd : isWhitespace d = false) :
    trimEndBlank (u ++ d :: v) = u ++ d :: trimEndBlank v := by
  unfold trimEndBlank
  rw [List.reverse_append, List.reverse_cons, List.append_assoc]
  have : ∀ l m : Str, (l ++ ([d] ++ m)).dropWhile isWhitespace = l.dropWhile isWhitespace ++ d :: m := by
    intro l m
    induction l with
    | nil => simp [hd]
    | cons a l ih =>
      rw [List.cons_append, List.dropWhile_cons, List.dropWhile_cons]
      split
      · exact ih
      · simp
  rw [this]
  simp

theorem strTrim_eq {ws s : Str} (h : ∀ c ∈ ws, isWhitespace c = true) {c : Char}
    (hc : isWhitespace c = false) : strTrim (ws ++ c :: s) = c :: trimEndBlank s := by
  have e : strTrim (ws ++ c :: s) = trimEndBlank ((ws ++ c :: s).dropWhile isWhitespace) := rfl
  rw [e, dropWhile_blank h, List.dropWhile_cons, if_neg (by simp [hc])]
  exact trimEnd_append [] s hc

theorem trimEnd_subset {s : Str} {c : Char} (h : c ∈ trimEndBlank s) : c ∈ s := by
  unfold trimEndBlank at h
  rw [List.mem_reverse] at h
  exact List.mem_reverse.mp ((List.dropWhile_sublist _).subset h)

end Chanoma
