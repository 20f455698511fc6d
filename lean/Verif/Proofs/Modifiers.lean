import Verif.Proofs.Machine
import Verif.Proofs.Neologdn
import Verif.Proofs.Pipeline
import Verif.Spec.Memory
/-! # Lemmas: every modifier is computed by a machine -/

namespace Chanoma

theorem finite_flatMap (g : Char → Str) (o : Str) : FiniteState 1 (fun t => o ++ t.flatMap g) :=
  FiniteState.det (σ := Unit) [()] (fun _ => by simp) () o (fun _ c => ((), g c)) (fun _ => []) (fun _ t => t.flatMap g)
    (fun _ => rfl) (fun _ c t => by rw [List.flatMap_cons])

theorem finite_squeeze (c : Char) : FiniteState 2 (squeeze c) := by
  have h := FiniteState.det (σ := Bool) [false, true] (fun s => by cases s <;> simp) false []
    (fun s a => (decide (a = c), if s = true ∧ a = c then [] else [a])) (fun _ => [])
    (fun s t => if s = true ∧ t.head? = some c then (squeeze c t).tail else squeeze c t)
    (fun s => by cases s <;> rfl) (fun s a t => by
      have hh : ∀ t : Str, t.head? = some c → ∃ u, squeeze c t = c :: u := by
        intro t ht
        have := squeeze_head c t
        rw [ht] at this
        cases hs : squeeze c t with
        | nil => rw [hs] at this; simp at this
        | cons b u => rw [hs] at this; simp at this; exact ⟨u, by rw [this]⟩
      by_cases ha : a = c
      · subst ha
        by_cases ht : t.head? = some a
        · obtain ⟨u, hu⟩ := hh t ht
          cases s <;> simp [squeeze, ht, hu]
        · cases s <;> simp [squeeze, ht]
      · cases s <;> simp [squeeze, ha])
  simpa using h

theorem finite_dotted : FiniteState 4 dottedModify := by
  have h := FiniteState.det (σ := Bool × Bool) [(false, false), (false, true), (true, false), (true, true)]
    (fun s => by obtain ⟨a, b⟩ := s; cases a <;> cases b <;> simp) (false, false) []
    (fun s c => if c = ' ' then ((s.1, true), []) else ((isAsciiAlphanumeric c, false),
      (if (s.1 && s.2 && isAsciiAlphanumeric c) = true then [' '] else []) ++ [c])) (fun _ => [])
    (fun s t => dGo s.1 s.2 t) (fun s => rfl) (fun s c t => by
      rw [dGo]
      split <;> simp)
  have e : (fun t => [] ++ dGo false false t) = dottedModify := by
    funext t; rw [dotted_eq_dGo]; rfl
  rw [e] at h
  exact h

/-! ### Replacement -/

/-- The longest end of `q` that is a beginning of `k`, and what comes before it. -/
def shed (k : Str) : Str → Str × Str
  | [] => ([], [])
  | c :: q => if (c :: q) <+: k then ([], c :: q) else (c :: (shed k q).1, (shed k q).2)

theorem shed_prefix (k q : Str) : (shed k q).2 <+: k := by
  induction q with
  | nil => exact List.nil_prefix
  | cons c q ih =>
    rw [shed]
    split
    · assumption
    · exact ih

theorem shed_length (k q : Str) : (shed k q).2.length ≤ q.length := by
  induction q with
  | nil => exact Nat.le_refl _
  | cons c q ih =>
    rw [shed]
    split
    · exact Nat.le_refl _
    · exact Nat.le_succ_of_le ih

theorem shed_replace {k : Str} (hk : k ≠ []) (v : Str) (q t : Str) (hq : q.length ≤ k.length) (hne : q ≠ k) :
    strReplace k v (q ++ t) = (shed k q).1 ++ strReplace k v ((shed k q).2 ++ t) := by
  induction q with
  | nil => rfl
  | cons c q ih =>
    rw [shed]
    split
    · rfl
    · rename_i h
      rw [List.cons_append, strReplace_keep hk v, ih (by simp at hq; omega)]
      · rfl
      · intro e; rw [← e] at hq; simp at hq; omega
      · intro hp
        rw [← List.cons_append] at hp
        rcases prefix_append_cases hp with hp | hp
        · exact hne (hp.eq_of_length (Nat.le_antisymm hp.length_le hq)).symm
        · exact h hp

theorem strReplace_short {k : Str} (hk : k ≠ []) (v t : Str) (h : t.length < k.length) : strReplace k v t = t := by
  induction t with
  | nil => exact strReplace_nil hk v
  | cons c t ih =>
    rw [strReplace_keep hk v fun hp => absurd hp.length_le (by omega), ih (by simp at h; omega)]

theorem finite_replace (k v : Str) : FiniteState (max 1 k.length) (strReplace k v) := by
  by_cases hk : k = []
  · subst hk
    exact finite_flatMap (fun c => c :: v) v
  · have hp := List.length_pos_iff.2 hk
    have lt : ∀ q : Str, q.length ≤ k.length → q ≠ k → (shed k q).2.length < k.length := by
      intro q h1 h2
      refine Nat.lt_of_le_of_ne (Nat.le_trans (shed_length k q) h1) fun e => ?_
      have h3 := (shed_prefix k q).eq_of_length e
      have h4 : (shed k q).2 <:+ q := by
        clear h3 e h1 h2
        induction q with
        | nil => exact List.suffix_refl _
        | cons c q ih =>
          rw [shed]
          split
          · exact List.suffix_refl _
          · exact ih.trans (List.suffix_cons c q)
      rw [h3] at h4
      exact h2 (h4.eq_of_length (Nat.le_antisymm h4.length_le h1)).symm
    have lq : ∀ (s : Fin k.length) (c : Char), (k.take s.1 ++ [c]).length ≤ k.length := by
      intro s c
      have := s.2
      simp only [List.length_append, List.length_take, List.length_singleton]; omega
    have h := FiniteState.det (σ := Fin k.length) (List.finRange k.length) (fun s => List.mem_finRange s) ⟨0, hp⟩ []
      (fun s c => if h : k.take s.1 ++ [c] = k then (⟨0, hp⟩, v)
        else (⟨(shed k (k.take s.1 ++ [c])).2.length, lt _ (lq s c) h⟩, (shed k (k.take s.1 ++ [c])).1))
      (fun s => k.take s.1) (fun s t => strReplace k v (k.take s.1 ++ t)) (fun s => by
        rw [List.append_nil]
        exact strReplace_short hk v _ (by have := s.2; rw [List.length_take]; omega)) (fun s c t => by
        have e : k.take s.1 ++ c :: t = (k.take s.1 ++ [c]) ++ t := by simp
        rw [e]
        split
        · rename_i h
          rw [h, strReplace_hit hk]
          simp
        · rename_i h
          rw [shed_replace hk v _ t (lq s c) h]
          have := List.prefix_iff_eq_take.1 (shed_prefix k (k.take s.1 ++ [c]))
          simp only
          rw [← this])
    rw [List.length_finRange] at h
    rw [Nat.max_eq_right hp]
    simpa using h

theorem finite_rules (l : List (Str × Str)) :
    FiniteState (l.foldr (fun e n => max 1 e.1.length * n) 1) (fun t => l.foldl (fun t e => strReplace e.1 e.2 t) t) := by
  induction l with
  | nil => simpa using finite_flatMap (fun c => [c]) []
  | cons e l ih => exact (finite_replace e.1 e.2).comp ih

/-! ### Trim -/

/-- Nothing but spaces yet; after another character; after a space that will be followed by another
character; among the last spaces. -/
inductive TrimState
  | lead
  | mid
  | gap
  | tail

inductive TrimStep : TrimState → Char → TrimState → Str → Prop
  | lead : TrimStep .lead ' ' .lead []
  | first {c : Char} : c ≠ ' ' → TrimStep .lead c .mid [c]
  | mid {c : Char} : c ≠ ' ' → TrimStep .mid c .mid [c]
  | open : TrimStep .mid ' ' .gap [' ']
  | last : TrimStep .mid ' ' .tail []
  | gap : TrimStep .gap ' ' .gap [' ']
  | close {c : Char} : c ≠ ' ' → TrimStep .gap c .mid [c]
  | tail : TrimStep .tail ' ' .tail []

def trimMachine : Machine where
  St := TrimState
  all := [.lead, .mid, .gap, .tail]
  complete := fun s => by cases s <;> simp
  start := fun s o => s = .lead ∧ o = []
  step := TrimStep
  stop := fun s o => s ≠ .gap ∧ o = []

def TrimOut (s : TrimState) (t o : Str) : Prop := ∃ s', trimMachine.Run s t s' o ∧ s' ≠ TrimState.gap

theorem trimOut_nil (s : TrimState) (o : Str) : TrimOut s [] o ↔ o = [] ∧ s ≠ .gap := by
  constructor
  · rintro ⟨s', h, h'⟩
    obtain ⟨h1, h2⟩ := h.nil_inv
    have h1 : s = s' := h1
    exact ⟨h2, h1 ▸ h'⟩
  · rintro ⟨rfl, h⟩
    exact ⟨s, .nil (M := trimMachine) s, h⟩

theorem trimOut_cons (s : TrimState) (c : Char) (t o : Str) : TrimOut s (c :: t) o ↔
    ∃ m o1 o2, TrimStep s c m o1 ∧ TrimOut m t o2 ∧ o = o1 ++ o2 := by
  constructor
  · rintro ⟨s', h, h'⟩
    obtain ⟨m, o1, o2, h1, h2, h3⟩ := h.cons_inv
    exact ⟨m, o1, o2, h1, ⟨s', h2, h'⟩, h3⟩
  · rintro ⟨m, o1, o2, h1, ⟨s', h2, h'⟩, rfl⟩
    exact ⟨s', .cons (M := trimMachine) h1 h2, h'⟩

theorem trimEnd_cons (c : Char) (t : Str) : trimEndMatches ' ' (c :: t) =
    if c = ' ' ∧ trimEndMatches ' ' t = [] then [] else c :: trimEndMatches ' ' t := by
  unfold trimEndMatches
  rw [List.reverse_cons, List.dropWhile_append]
  by_cases h : (t.reverse.dropWhile (· == ' ')) = []
  · rw [h]
    by_cases hc : c = ' ' <;> simp [hc, List.dropWhile]
    simp [show (c == ' ') = false by simpa using hc]
  · simp [h]

theorem trimOut_iff (t : Str) : (∀ o, TrimOut .tail t o ↔ o = [] ∧ trimEndMatches ' ' t = []) ∧
    (∀ o, TrimOut .gap t o ↔ o = trimEndMatches ' ' t ∧ trimEndMatches ' ' t ≠ []) ∧
    (∀ o, TrimOut .mid t o ↔ o = trimEndMatches ' ' t) ∧ (∀ o, TrimOut .lead t o ↔ o = trimModify t) := by
  induction t with
  | nil =>
    have e : trimEndMatches ' ' [] = [] := rfl
    have e' : trimModify [] = [] := rfl
    simp [trimOut_nil, e, e']
  | cons c t ih =>
    obtain ⟨i1, i2, i3, i4⟩ := ih
    by_cases hc : c = ' '
    · subst hc
      refine ⟨fun o => ?_, fun o => ?_, fun o => ?_, fun o => ?_⟩
      · rw [trimOut_cons, trimEnd_cons]
        constructor
        · rintro ⟨m, o1, o2, h1, h2, rfl⟩
          cases h1 with
          | tail => obtain ⟨rfl, h⟩ := (i1 _).1 h2; simp [h]
        · rintro ⟨rfl, h⟩
          have : trimEndMatches ' ' t = [] := by
            apply Classical.byContradiction
            intro h'; simp [h'] at h
          exact ⟨_, _, _, .tail, (i1 []).2 ⟨rfl, this⟩, rfl⟩
      · rw [trimOut_cons, trimEnd_cons]
        constructor
        · rintro ⟨m, o1, o2, h1, h2, rfl⟩
          cases h1 with
          | gap => obtain ⟨rfl, h⟩ := (i2 _).1 h2; simp [h]
          | close h => exact absurd rfl h
        · rintro ⟨rfl, h⟩
          have : trimEndMatches ' ' t ≠ [] := by intro h'; simp [h'] at h
          exact ⟨_, _, _, .gap, (i2 _).2 ⟨rfl, this⟩, by simp [this]⟩
      · rw [trimOut_cons, trimEnd_cons]
        constructor
        · rintro ⟨m, o1, o2, h1, h2, rfl⟩
          cases h1 with
          | mid h => exact absurd rfl h
          | «open» => obtain ⟨rfl, h⟩ := (i2 _).1 h2; simp [h]
          | last => obtain ⟨rfl, h⟩ := (i1 _).1 h2; simp [h]
        · rintro rfl
          by_cases h : trimEndMatches ' ' t = []
          · exact ⟨_, _, _, .last, (i1 []).2 ⟨rfl, h⟩, by simp [h]⟩
          · exact ⟨_, _, _, .open, (i2 _).2 ⟨rfl, h⟩, by simp [h]⟩
      · have e : trimModify (' ' :: t) = trimModify t := by
          simp [trimModify, trimMatches, trimStartMatches, List.dropWhile]
        rw [trimOut_cons, e]
        constructor
        · rintro ⟨m, o1, o2, h1, h2, rfl⟩
          cases h1 with
          | lead => exact (i4 _).1 h2
          | first h => exact absurd rfl h
        · rintro rfl
          exact ⟨_, _, _, .lead, (i4 _).2 rfl, rfl⟩
    · have e : trimEndMatches ' ' (c :: t) = c :: trimEndMatches ' ' t := by rw [trimEnd_cons]; simp [hc]
      refine ⟨fun o => ?_, fun o => ?_, fun o => ?_, fun o => ?_⟩
      · rw [trimOut_cons, e]
        constructor
        · rintro ⟨m, o1, o2, h1, h2, rfl⟩
          cases h1
          exact absurd rfl hc
        · rintro ⟨_, h⟩; simp at h
      · rw [trimOut_cons, e]
        constructor
        · rintro ⟨m, o1, o2, h1, h2, rfl⟩
          cases h1 with
          | gap => exact absurd rfl hc
          | close _ => rw [(i3 _).1 h2]; simp
        · rintro ⟨rfl, _⟩
          exact ⟨_, _, _, .close hc, (i3 _).2 rfl, rfl⟩
      · rw [trimOut_cons, e]
        constructor
        · rintro ⟨m, o1, o2, h1, h2, rfl⟩
          cases h1 with
          | mid _ => rw [(i3 _).1 h2]; rfl
          | «open» => exact absurd rfl hc
          | last => exact absurd rfl hc
        · rintro rfl
          exact ⟨_, _, _, .mid hc, (i3 _).2 rfl, rfl⟩
      · have e' : trimModify (c :: t) = c :: trimEndMatches ' ' t := by
          rw [← e]
          simp [trimModify, trimMatches, trimStartMatches, List.dropWhile, show (c == ' ') = false by simpa using hc]
        rw [trimOut_cons, e']
        constructor
        · rintro ⟨m, o1, o2, h1, h2, rfl⟩
          cases h1 with
          | lead => exact absurd rfl hc
          | first _ => rw [(i3 _).1 h2]; rfl
        · rintro rfl
          exact ⟨_, _, _, .first hc, (i3 _).2 rfl, rfl⟩

theorem finite_trim : FiniteState 4 trimModify := by
  refine ⟨trimMachine, rfl, fun t o => ?_⟩
  rw [← (trimOut_iff t).2.2.2 o]
  constructor
  · rintro ⟨s, o1, s', o2, o3, ⟨e1, e2⟩, h, ⟨h', e3⟩, rfl⟩
    have e1 : s = TrimState.lead := e1
    rw [e2, e3, List.nil_append, List.append_nil]
    rw [e1] at h
    exact ⟨s', h, h'⟩
  · rintro ⟨s', h, h'⟩
    exact ⟨TrimState.lead, [], s', o, [], ⟨rfl, rfl⟩, h, ⟨h', rfl⟩, by simp⟩

/-! ### neologdn -/

def bases : List Char := c! "かきくけこさしすせそたちつてとはひふへほカキクケコサシスセソタチツテトハヒフヘホうウ"

theorem voiced_bases {a m b : Char} (h : voiced a m = some b) : a ∈ bases := by
  have e : bases = c! "かきくけこさしすせそたちつてとはひふへほカキクケコサシスセソタチツテトハヒフヘホ" ++ ['う', 'ウ'] := by
    decide +kernel
  have e2 : ∀ c ∈ c! "はひふへほハヒフヘホ", c ∈ bases := by decide +kernel
  unfold voiced at h
  split at h
  · split at h
    · rw [e, List.mem_append]; exact .inl (by assumption)
    · split at h
      · rename_i ha; rw [e, ha]; simp
      · split at h
        · rename_i ha; rw [e, ha]; simp
        · cases h
  · split at h
    · split at h
      · exact e2 a (by assumption)
      · cases h
    · cases h

/-- Read the character `c` with nothing pending. -/
def pend (c : Char) : Option { a : Char // a ∈ bases } × Str :=
  if h : c ∈ bases then (some ⟨c, h⟩, []) else (none, [c])

def pendOut : Option { a : Char // a ∈ bases } → Str
  | none => []
  | some a => [a.1]

theorem compose_pend (c : Char) (t : Str) :
    composeMarks (c :: t) = (pend c).2 ++ composeMarks (pendOut (pend c).1 ++ t) := by
  unfold pend
  split
  · rfl
  · rename_i h
    cases t with
    | nil => simp [composeMarks, pendOut]
    | cons m t =>
      rw [composeMarks]
      split
      · rename_i h'; exact absurd (voiced_bases h') h
      · rfl

theorem finite_compose : FiniteState 43 composeMarks := by
  have h := FiniteState.det (σ := Option { a : Char // a ∈ bases }) (none :: bases.attach.map some)
    (fun s => by cases s <;> simp) none []
    (fun s c => match s with
      | none => pend c
      | some a => match voiced a.1 c with
        | some b => (none, [b])
        | none => ((pend c).1, a.1 :: (pend c).2))
    pendOut (fun s t => composeMarks (pendOut s ++ t)) (fun s => by
      cases s <;> simp [pendOut, composeMarks]) (fun s c t => by
      cases s with
      | none => exact compose_pend c t
      | some a =>
        show composeMarks (a.1 :: c :: t) = _
        rw [composeMarks]
        simp only
        cases hv : voiced a.1 c with
        | some b => simp [pendOut]
        | none =>
          simp only
          rw [compose_pend c t]
          rfl)
  have e : (none :: bases.attach.map some).length = 43 := by
    rw [List.length_cons, List.length_map, List.length_attach]; decide +kernel
  rw [e] at h
  simpa [pendOut] using h

theorem finite_neologdn : FiniteState 344 neologdnSpec := by
  have h := ((((finite_flatMap (fun c => [neologdnFold c]) []).comp (finite_squeeze 'ー')).comp finite_dotted).comp
    (finite_flatMap (fun c => if c ∈ tildeChars then [] else [c]) [])).comp finite_compose
  have e : neologdnSpec = fun t => composeMarks ([] ++ (dottedModify (squeeze 'ー'
      ([] ++ t.flatMap fun c => [neologdnFold c]))).flatMap fun c => if c ∈ tildeChars then [] else [c]) := by
    funext t
    rw [neologdnSpec, ← dotted_eq]
    congr 1
    have e1 : ∀ s : Str, s.filter (· ∉ tildeChars) = s.flatMap fun c => if c ∈ tildeChars then [] else [c] := by
      intro s
      induction s with
      | nil => rfl
      | cons c s ih => rw [List.flatMap_cons, ← ih]; by_cases hc : c ∈ tildeChars <;> simp [hc]
    have e2 : ∀ s : Str, s.map neologdnFold = s.flatMap fun c => [neologdnFold c] := by
      intro s
      induction s with
      | nil => rfl
      | cons c s ih => rw [List.flatMap_cons, ← ih]; rfl
    rw [e1, e2]; rfl
  rw [e]
  exact h

end Chanoma
