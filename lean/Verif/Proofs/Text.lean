import Verif.Model.Modifier
import Verif.Spec.Text
/-! # Lemmas about the simple modifiers -/

namespace Chanoma

theorem isAlnum_iff (c : Char) : isAsciiAlphanumeric c = true ↔ IsAlnum (some c) := by
  have h1 : ∀ a b : Char, a ≤ b ↔ a.toNat ≤ b.toNat := fun a b => Iff.rfl
  simp only [isAsciiAlphanumeric, IsAlnum, h1, Bool.or_eq_true, Bool.and_eq_true, decide_eq_true_eq,
    or_assoc]
  exact Iff.rfl

theorem isAlnum_space : isAsciiAlphanumeric ' ' = false := by decide

/-- `IsAlnum` as a Boolean. -/
def alnumB : Option Char → Bool
  | some c => isAsciiAlphanumeric c
  | none => false

theorem alnumB_iff (o : Option Char) : alnumB o = true ↔ IsAlnum o := by
  cases o with
  | none => simp [alnumB, IsAlnum]
  | some c => exact isAlnum_iff c

/-! ## Eliminator -/

theorem eliminator_eq (x : CharacterEliminator) (input : Str) :
    x.modify input = input.filter (fun c => c ∉ x.chars) := by
  unfold CharacterEliminator.modify
  suffices ∀ acc : Str, input.foldl (fun s c => if c ∈ x.chars then s else s ++ [c]) acc =
      acc ++ input.filter (fun c => c ∉ x.chars) by simpa using this []
  induction input with
  | nil => simp
  | cons a t ih =>
    intro acc
    rw [List.foldl_cons, ih]
    by_cases h : a ∈ x.chars <;> simp [h]

theorem mem_fromChars (cs : List Char) (c : Char) :
    c ∈ (CharacterEliminator.fromChars cs).chars ↔ c ∈ cs := by
  unfold CharacterEliminator.fromChars
  suffices ∀ acc : List Char, c ∈ cs.foldl hsetInsert acc ↔ c ∈ acc ∨ c ∈ cs by simpa using this []
  induction cs with
  | nil => simp
  | cons a t ih =>
    intro acc
    rw [List.foldl_cons, ih]
    unfold hsetInsert
    split
    · rename_i h
      simp only [List.mem_cons]
      constructor
      · rintro (h | h) <;> simp [h]
      · rintro (h1 | rfl | h1) <;> simp [*]
    · simp [or_assoc]

/-! ## Reducer -/

/-- The reducer as a recursion; `b` says that the previous character was `c`. -/
def redGo (c : Char) : Bool → Str → Str
  | _, [] => []
  | b, a :: t => if c = a then (if b then redGo c true t else a :: redGo c true t)
      else a :: redGo c false t

theorem reduce_foldl (c : Char) (input : Str) (b : Bool) (text : Str) :
    (input.foldl (reduceStep c) (b, text)).2 = text ++ redGo c b input := by
  induction input generalizing b text with
  | nil => simp [redGo]
  | cons a t ih =>
    rw [List.foldl_cons]
    have e : reduceStep c (b, text) a = if c = a then (if b then (b, text) else (true, text ++ [a]))
        else (false, text ++ [a]) := rfl
    rw [e, redGo]
    by_cases h : c = a
    · cases b <;> simp [h] <;> rw [← h, ih] <;> simp
    · simp [h, ih]

theorem redGo_squeeze (c : Char) (t : Str) :
    redGo c false t = squeeze c t ∧ c :: redGo c true t = squeeze c (c :: t) := by
  induction t with
  | nil => simp [redGo, squeeze]
  | cons a t ih =>
    by_cases h : c = a
    · subst h
      have h2 : c :: redGo c true (c :: t) = squeeze c (c :: c :: t) := by
        rw [squeeze, if_pos ⟨rfl, rfl⟩, ← ih.2]
        simp [redGo]
      refine ⟨?_, h2⟩
      rw [← ih.2]; simp [redGo]
    · have hac : ¬ a = c := fun e => h e.symm
      have h1 : redGo c false (a :: t) = squeeze c (a :: t) := by
        rw [squeeze, if_neg (by simp [hac])]
        simp [redGo, h, ih.1]
      refine ⟨h1, ?_⟩
      rw [squeeze, if_neg (by simp [hac]), ← h1]
      simp [redGo, h]

theorem reducer_eq (x : ConsecutiveCharacterReducer) (input : Str) :
    x.modify input = squeeze x.c input := by
  unfold ConsecutiveCharacterReducer.modify
  rw [reduce_foldl, (redGo_squeeze x.c input).1]; rfl

theorem squeeze_head (c : Char) (t : Str) : (squeeze c t).head? = t.head? := by
  induction t with
  | nil => rfl
  | cons a t ih =>
    unfold squeeze
    split
    · rename_i h
      rw [ih]; simp [h.1, h.2]
    · rfl

theorem squeeze_mem {c d : Char} {t : Str} (h : d ∈ squeeze c t) : d ∈ t := by
  induction t with
  | nil => simp [squeeze] at h
  | cons a t ih =>
    rw [squeeze] at h
    split at h
    · simp [ih h]
    · rcases List.mem_cons.mp h with rfl | h
      · simp
      · simp [ih h]

theorem squeeze_no_pair (c : Char) (t u v : Str) : squeeze c t ≠ u ++ c :: c :: v := by
  induction t generalizing u with
  | nil => simp [squeeze]
  | cons a t ih =>
    unfold squeeze
    split
    · exact ih u
    · rename_i h
      intro e
      cases u with
      | nil =>
        simp only [List.nil_append, List.cons.injEq] at e
        apply h
        refine ⟨e.1, ?_⟩
        rw [← squeeze_head, e.2]; rfl
      | cons b u =>
        simp only [List.cons_append, List.cons.injEq] at e
        exact ih u e.2

theorem squeeze_fix {c : Char} {t : Str} (h : ∀ u v, t ≠ u ++ c :: c :: v) : squeeze c t = t := by
  induction t with
  | nil => rfl
  | cons a t ih =>
    unfold squeeze
    split
    · rename_i h1
      obtain ⟨rfl, h2⟩ := h1
      cases t with
      | nil => simp at h2
      | cons b t =>
        simp only [List.head?_cons, Option.some.injEq] at h2
        subst h2
        exact absurd rfl (h [] t)
    · rw [ih]
      intro u v e
      exact h (a :: u) v (by rw [e]; rfl)

theorem squeeze_idem (c : Char) (t : Str) : squeeze c (squeeze c t) = squeeze c t :=
  squeeze_fix (squeeze_no_pair c t)

theorem squeeze_append (c : Char) (u v : Str) (h : ¬ (u.getLast? = some c ∧ v.head? = some c)) :
    squeeze c (u ++ v) = squeeze c u ++ squeeze c v := by
  induction u with
  | nil => rfl
  | cons a u ih =>
    simp only [List.cons_append]
    cases u with
    | nil =>
      by_cases hc : a = c
      · subst hc
        have : v.head? ≠ some a := fun e => h ⟨rfl, e⟩
        simp [squeeze, this]
      · simp [squeeze, hc]
    | cons b u =>
      have ih := ih (by simpa using h)
      have e : ∀ s : Str, squeeze c (a :: b :: s) =
          if a = c ∧ b = c then squeeze c (b :: s) else a :: squeeze c (b :: s) := by
        intro s; rw [squeeze]; simp
      rw [List.cons_append, e, e]
      rw [List.cons_append] at ih
      split
      · exact ih
      · rw [ih, List.cons_append]

theorem squeeze_replicate (c : Char) (k : Nat) : squeeze c (List.replicate (k + 1) c) = [c] := by
  induction k with
  | zero => simp [squeeze]
  | succ k ih =>
    rw [List.replicate_succ, squeeze, if_pos (by simp [List.replicate_succ]), ih]

theorem squeeze_not_mem {c : Char} {t : Str} (h : c ∉ t) : squeeze c t = t := by
  apply squeeze_fix
  intro u v e
  apply h
  rw [e]; simp

/-! ## Dotted spaces -/

/-- The dotted-space rule as a recursion; `p`: the last non-space character was alphanumeric,
`sp`: a space was seen since. -/
def dGo : Bool → Bool → Str → Str
  | _, _, [] => []
  | p, sp, c :: t =>
    if c = ' ' then dGo p true t
    else (if (p && sp && isAsciiAlphanumeric c) = true then [' '] else []) ++
      c :: dGo (isAsciiAlphanumeric c) false t

theorem dotted_foldl (t : Str) (p sp : Bool) (st : DottedState) (h1 : st.space = (p && sp))
    (h2 : isAsciiAlphanumeric st.prev = (p && !sp)) :
    (t.foldl dottedStep st).text = st.text ++ dGo p sp t := by
  induction t generalizing p sp st with
  | nil => simp [dGo]
  | cons c t ih =>
    rw [List.foldl_cons]
    by_cases hc : c = ' '
    · subst hc
      rw [ih p true]
      · simp [dottedStep, dGo]
      · simp only [dottedStep, h1, h2]; cases p <;> cases sp <;> rfl
      · simp [dottedStep, isAlnum_space]
    · rw [ih (isAsciiAlphanumeric c) false]
      · simp only [dottedStep, dGo, hc, if_false, h1, List.append_assoc]
        split <;> simp
      · simp [dottedStep, hc]
      · simp [dottedStep, hc]

theorem dotted_eq_dGo (t : Str) : dottedModify t = dGo false false t := by
  unfold dottedModify
  rw [dotted_foldl t false false _ rfl (by decide)]
  rfl

/-- Separator before the first of the words `ws`. -/
def glueB (b : Bool) : List Str → Str
  | w :: _ => if (b && alnumB w.head?) = true then [' '] else []
  | [] => []

/-- Does the text start with a space? -/
def startsSpace : Str → Bool
  | ' ' :: _ => true
  | _ => false

theorem words_nonspace {c : Char} (h : c ≠ ' ') (t : Str) :
    ∃ w ws, words (c :: t) = (c :: w) :: ws := by
  unfold words
  rw [if_neg h]
  cases t with
  | nil => exact ⟨[], [], rfl⟩
  | cons d t =>
    cases hw : words (d :: t) with
    | nil => exact ⟨[], [], rfl⟩
    | cons w ws =>
      simp only
      split
      · exact ⟨_, _, rfl⟩
      · exact ⟨_, _, rfl⟩

theorem joinWords_cons (w : Str) (ws : List Str) :
    joinWords (w :: ws) = w ++ glueB (alnumB w.getLast?) ws ++ joinWords ws := by
  cases ws with
  | nil => simp [joinWords, glueB]
  | cons w' ws =>
    simp only [joinWords, glueB, Bool.and_eq_true, alnumB_iff]

theorem joinWords_words_cons {c : Char} (h : c ≠ ' ') (t : Str) :
    joinWords (words (c :: t)) =
      c :: (glueB (isAsciiAlphanumeric c && startsSpace t) (words t) ++ joinWords (words t)) := by
  cases t with
  | nil => simp [words, h, joinWords, glueB]
  | cons d t =>
    by_cases hd : d = ' '
    · subst hd
      have hw : words (' ' :: t) = words t := by simp [words]
      rw [hw]
      cases hws : words t with
      | nil => simp [words, h, hws, joinWords, glueB]
      | cons w ws =>
        simp only [words, h, hws, if_false, if_true]
        rw [joinWords_cons]
        simp [alnumB, startsSpace]
    · obtain ⟨w, ws, hws⟩ := words_nonspace hd t
      have hs : startsSpace (d :: t) = false := by
        unfold startsSpace
        split
        · rename_i e; simp at e; exact absurd e.1 hd
        · rfl
      have : words (c :: d :: t) = (c :: d :: w) :: ws := by
        rw [words.eq_def]
        simp only [h, if_false]
        rw [hws]
        simp [hd]
      rw [this, hws, hs, joinWords_cons, joinWords_cons]
      simp [glueB]

theorem dGo_words (t : Str) (p sp : Bool) :
    dGo p sp t = glueB (p && (sp || startsSpace t)) (words t) ++ joinWords (words t) := by
  induction t generalizing p sp with
  | nil => simp [dGo, words, glueB, joinWords]
  | cons c t ih =>
    by_cases hc : c = ' '
    · subst hc
      have hw : words (' ' :: t) = words t := by simp [words]
      rw [hw]
      simp only [dGo, if_true, ih]
      simp [startsSpace]
    · rw [joinWords_words_cons hc]
      simp only [dGo, hc, if_false, ih, Bool.false_or]
      obtain ⟨w, ws, hws⟩ := words_nonspace hc t
      have hs : startsSpace (c :: t) = false := by
        unfold startsSpace
        split
        · rename_i e; simp at e; exact absurd e.1 hc
        · rfl
      rw [hws, hs]
      simp [glueB, alnumB]

theorem dotted_eq (t : Str) : dottedModify t = spaceRule t := by
  rw [dotted_eq_dGo, dGo_words]
  unfold spaceRule
  cases hw : words t <;> simp [glueB]

theorem dGo_nonspace (t : Str) (p sp : Bool) :
    (dGo p sp t).filter (· ≠ ' ') = t.filter (· ≠ ' ') := by
  induction t generalizing p sp with
  | nil => simp [dGo]
  | cons c t ih =>
    by_cases hc : c = ' '
    · subst hc
      have e : dGo p sp (' ' :: t) = dGo p true t := by rw [dGo]; rfl
      rw [e, ih]; rfl
    · simp only [dGo, hc, if_false, List.filter_append]
      rw [List.filter_cons, List.filter_cons, ih]
      split <;> simp [hc]

theorem dGo_replicate (k : Nat) (t : Str) (p sp : Bool) :
    dGo p sp (List.replicate k ' ' ++ t) = dGo p (sp || decide (0 < k)) t := by
  induction k generalizing sp with
  | zero => simp
  | succ k ih => simp [List.replicate_succ, dGo, ih]

theorem dGo_replicate' (k : Nat) (p sp : Bool) : dGo p sp (List.replicate k ' ') = [] := by
  have := dGo_replicate k [] p sp
  simpa [dGo] using this

theorem dGo_trailing (t : Str) (k : Nat) (p sp : Bool) :
    dGo p sp (t ++ List.replicate k ' ') = dGo p sp t := by
  induction t generalizing p sp with
  | nil => simp [dGo_replicate', dGo]
  | cons c t ih => simp [dGo, ih]

theorem dGo_first {b : Char} (hb : b ≠ ' ') (v : Str) (p sp : Bool) :
    dGo p sp (b :: v) = (if (p && sp && isAsciiAlphanumeric b) = true then [' '] else []) ++
      dGo false false (b :: v) := by
  simp [dGo, hb]

theorem dGo_gap {a b : Char} (ha : a ≠ ' ') (hb : b ≠ ' ') (u v : Str) (k : Nat) (p sp : Bool) :
    dGo p sp (u ++ a :: (List.replicate k ' ' ++ b :: v)) =
      dGo p sp (u ++ [a]) ++
        (if (isAsciiAlphanumeric a && decide (0 < k) && isAsciiAlphanumeric b) = true then [' '] else []) ++
        dGo false false (b :: v) := by
  induction u generalizing p sp with
  | nil =>
    simp only [List.nil_append]
    have e1 : dGo p sp (a :: (List.replicate k ' ' ++ b :: v)) =
        (if (p && sp && isAsciiAlphanumeric a) = true then [' '] else []) ++
          a :: dGo (isAsciiAlphanumeric a) false (List.replicate k ' ' ++ b :: v) := by
      simp [dGo, ha]
    rw [e1, dGo_replicate, dGo_first hb]
    simp [dGo, ha]
  | cons c u ih =>
    have e : ∀ s : Str, dGo p sp (c :: s) = if c = ' ' then dGo p true s
        else (if (p && sp && isAsciiAlphanumeric c) = true then [' '] else []) ++
          c :: dGo (isAsciiAlphanumeric c) false s := fun s => by rw [dGo]
    simp only [List.cons_append, e]
    split
    · exact ih _ _
    · rw [ih]; simp only [List.append_assoc, List.cons_append]

/-- `SpacesOk` as a recursion; `p`: the previous character was alphanumeric. -/
def spOk : Bool → Str → Bool
  | _, [] => true
  | p, c :: t => if c = ' ' then p && alnumB t.head? && spOk false t
      else spOk (isAsciiAlphanumeric c) t

theorem spOk_iff (t : Str) (p : Bool) : spOk p t = true ↔
    ∀ u v, t = u ++ ' ' :: v →
      (u = [] ∧ p = true ∨ IsAlnum u.getLast?) ∧ IsAlnum v.head? := by
  induction t generalizing p with
  | nil => simp [spOk]
  | cons c t ih =>
    by_cases hc : c = ' '
    · subst hc
      simp only [spOk, if_true, Bool.and_eq_true, ih, alnumB_iff]
      constructor
      · rintro ⟨⟨hp, hh⟩, h⟩ u v e
        cases u with
        | nil =>
          simp only [List.nil_append, List.cons.injEq, true_and] at e
          subst e
          exact ⟨.inl ⟨rfl, hp⟩, hh⟩
        | cons a u =>
          simp only [List.cons_append, List.cons.injEq] at e
          obtain ⟨rfl, e⟩ := e
          obtain ⟨h1, h2⟩ := h u v e
          refine ⟨.inr ?_, h2⟩
          rcases h1 with ⟨_, h1⟩ | h1
          · cases h1
          · cases u with
            | nil => simp [IsAlnum] at h1
            | cons b u => simpa using h1
      · intro h
        obtain ⟨h1, h2⟩ := h [] t rfl
        refine ⟨⟨?_, h2⟩, ?_⟩
        · rcases h1 with ⟨_, h1⟩ | h1
          · exact h1
          · simp [IsAlnum] at h1
        · intro u v e
          obtain ⟨h3, h4⟩ := h (' ' :: u) v (by rw [e]; rfl)
          refine ⟨?_, h4⟩
          rcases h3 with ⟨h3, _⟩ | h3
          · cases h3
          · cases u with
            | nil => exact absurd h3 (by decide)
            | cons b u => right; simpa using h3
    · simp only [spOk, hc, if_false, ih]
      constructor
      · intro h u v e
        cases u with
        | nil => simp only [List.nil_append, List.cons.injEq] at e; exact absurd e.1 hc
        | cons a u =>
          simp only [List.cons_append, List.cons.injEq] at e
          obtain ⟨rfl, e⟩ := e
          obtain ⟨h1, h2⟩ := h u v e
          refine ⟨.inr ?_, h2⟩
          rcases h1 with ⟨rfl, h1⟩ | h1
          · exact (isAlnum_iff c).mp h1
          · cases u with
            | nil => simp [IsAlnum] at h1
            | cons b u => simpa using h1
      · intro h u v e
        obtain ⟨h3, h4⟩ := h (c :: u) v (by rw [e]; rfl)
        refine ⟨?_, h4⟩
        rcases h3 with ⟨h3, _⟩ | h3
        · cases h3
        · cases u with
          | nil => left; exact ⟨rfl, (isAlnum_iff c).mpr h3⟩
          | cons b u => right; simpa using h3

theorem spacesOk_iff (t : Str) : SpacesOk t ↔ spOk false t = true := by
  rw [spOk_iff]
  unfold SpacesOk
  simp

theorem dGo_spOk (t : Str) (p sp : Bool) : spOk p (dGo p sp t) = true := by
  induction t generalizing p sp with
  | nil => simp [dGo, spOk]
  | cons c t ih =>
    by_cases hc : c = ' '
    · simp [dGo, hc, ih]
    · simp only [dGo, hc, if_false]
      split
      · rename_i h
        simp only [Bool.and_eq_true] at h
        simp [spOk, hc, ih, h, alnumB]
      · simp [spOk, hc, ih]

theorem spOk_fix (t : Str) (p : Bool) (h : spOk p t = true) : dGo p false t = t := by
  induction t generalizing p with
  | nil => rfl
  | cons c t ih =>
    by_cases hc : c = ' '
    · subst hc
      simp only [spOk, if_true, Bool.and_eq_true] at h
      obtain ⟨⟨hp, hh⟩, h⟩ := h
      cases t with
      | nil => simp [alnumB] at hh
      | cons d t =>
        have hd : d ≠ ' ' := by
          rintro rfl
          simp [alnumB, isAlnum_space] at hh
        have e : dGo p false (' ' :: d :: t) = dGo p true (d :: t) := by rw [dGo]; rfl
        rw [e, dGo_first hd, ih false h]
        simp [alnumB] at hh
        simp [hp, hh]
    · simp only [spOk, hc, if_false] at h
      simp [dGo, hc, ih _ h]

theorem dotted_spacesOk (t : Str) : SpacesOk (dottedModify t) := by
  rw [spacesOk_iff, dotted_eq_dGo]; exact dGo_spOk t false false

theorem dotted_fix {t : Str} (h : SpacesOk t) : dottedModify t = t := by
  rw [dotted_eq_dGo]; exact spOk_fix t false ((spacesOk_iff t).mp h)

theorem words_squeeze (t : Str) : words (squeeze ' ' t) = words t := by
  induction t with
  | nil => rfl
  | cons c t ih =>
    unfold squeeze
    split
    · rename_i h
      obtain ⟨rfl, -⟩ := h
      rw [ih]; simp [words]
    · have hh := squeeze_head ' ' t
      by_cases hc : c = ' '
      · simp [words, hc, ih]
      · simp only [words, hc, if_false, ih]
        cases hs : squeeze ' ' t with
        | nil =>
          rw [hs] at hh
          cases t with
          | nil => rfl
          | cons d t => simp at hh
        | cons d s =>
          rw [hs] at hh
          cases t with
          | nil => simp at hh
          | cons e t =>
            simp at hh
            subst hh
            cases words (d :: t) <;> rfl

/-! ## Trim -/

theorem dropWhile_space_eq (t : Str) :
    ∃ k, t = List.replicate k ' ' ++ t.dropWhile (· == ' ') ∧
      (t.dropWhile (· == ' ')).head? ≠ some ' ' := by
  induction t with
  | nil => exact ⟨0, by simp⟩
  | cons c t ih =>
    by_cases hc : c = ' '
    · subst hc
      obtain ⟨k, h1, h2⟩ := ih
      refine ⟨k + 1, ?_, by simpa using h2⟩
      rw [List.replicate_succ]
      simpa using h1
    · exact ⟨0, by simp [hc], by simp [hc]⟩

theorem trimStart_eq (t : Str) : ∃ k, t = List.replicate k ' ' ++ trimStartMatches ' ' t ∧
    (trimStartMatches ' ' t).head? ≠ some ' ' := dropWhile_space_eq t

theorem trimEnd_eq (t : Str) : ∃ k, t = trimEndMatches ' ' t ++ List.replicate k ' ' ∧
    (trimEndMatches ' ' t).getLast? ≠ some ' ' := by
  obtain ⟨k, h1, h2⟩ := dropWhile_space_eq t.reverse
  refine ⟨k, ?_, ?_⟩
  · have := congrArg List.reverse h1
    simpa [trimEndMatches] using this
  · simpa [trimEndMatches, List.getLast?_reverse] using h2

theorem trim_unique {a b a' b' : Nat} {o o' : Str}
    (h : List.replicate a ' ' ++ o ++ List.replicate b ' ' =
      List.replicate a' ' ' ++ o' ++ List.replicate b' ' ')
    (h1 : o.head? ≠ some ' ') (h2 : o.getLast? ≠ some ' ')
    (h1' : o'.head? ≠ some ' ') (h2' : o'.getLast? ≠ some ' ') : o = o' := by
  have drop : ∀ (k : Nat) (s : Str), (List.replicate k ' ' ++ s).dropWhile (· == ' ') =
      s.dropWhile (· == ' ') := by
    intro k s
    induction k with
    | zero => simp
    | succ k ih => simp [List.replicate_succ]
  have fix : ∀ s : Str, s.head? ≠ some ' ' → s.dropWhile (· == ' ') = s := by
    intro s hs
    cases s with
    | nil => rfl
    | cons c s =>
      have : c ≠ ' ' := by simpa using hs
      simp [this]
  have key : ∀ (a b : Nat) (o : Str), o.head? ≠ some ' ' → o.getLast? ≠ some ' ' →
      trimMatches ' ' (List.replicate a ' ' ++ o ++ List.replicate b ' ') = o := by
    intro a b o h1 h2
    unfold trimMatches trimEndMatches trimStartMatches
    rw [List.append_assoc, drop]
    cases o with
    | nil =>
      have := drop b []
      simp only [List.append_nil] at this
      simp [this]
    | cons c o =>
      rw [fix (c :: o ++ List.replicate b ' ') (by simpa using h1)]
      rw [List.reverse_append, List.reverse_replicate, drop, fix]
      · simp
      · rw [List.head?_reverse]; exact h2
  rw [← key a b o h1 h2, h, key a' b' o' h1' h2']

theorem trimEnd_head (t : Str) (h : t.head? ≠ some ' ') : (trimEndMatches ' ' t).head? ≠ some ' ' := by
  obtain ⟨k, h1, h2⟩ := trimEnd_eq t
  cases ho : trimEndMatches ' ' t with
  | nil => simp
  | cons c o =>
    rw [h1, ho] at h
    simpa using h

theorem trim_eq (t : Str) : ∃ a b, t = List.replicate a ' ' ++ trimModify t ++ List.replicate b ' ' ∧
    (trimModify t).head? ≠ some ' ' ∧ (trimModify t).getLast? ≠ some ' ' := by
  obtain ⟨a, h1, h2⟩ := trimStart_eq t
  obtain ⟨b, h3, h4⟩ := trimEnd_eq (trimStartMatches ' ' t)
  refine ⟨a, b, ?_, trimEnd_head _ h2, h4⟩
  unfold trimModify trimMatches
  rw [List.append_assoc, ← h3]; exact h1

end Chanoma
