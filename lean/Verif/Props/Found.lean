import Verif.Props.Contained
import Verif.Props.Text
import Verif.Proofs.Context
import Verif.Proofs.SwapNeologdn
import Verif.Props.Backwards
import Verif.Spec.Files
/-! # C107: what is found in a normalised text stands in the text -/

namespace Chanoma

/-- Converters, eliminators and reducers. -/
def ModifierKind.InPlace : ModifierKind → Prop
  | .characterConverter _ | .characterEliminator _ | .consecutiveCharacterReducer _ => True
  | _ => False

/-- Beginnings of results are results of beginnings. -/
def LiftsPre (F : Str → Str) : Prop := ∀ t q, q <+: F t → ∃ r, r <+: t ∧ F r = q

/-- Ends of results are results of ends. -/
def LiftsSuf (F : Str → Str) : Prop := ∀ t q, q <:+ F t → ∃ r, r <:+ t ∧ F r = q

/-- Parts of results are results of parts. -/
def Lifts (F : Str → Str) : Prop := ∀ t q, q <:+: F t → ∃ r, r <:+: t ∧ F r = q

theorem lifts_of {F : Str → Str} (h1 : LiftsPre F) (h2 : LiftsSuf F) : Lifts F := by
  rintro t q ⟨a, b, h⟩
  obtain ⟨r, hr, e⟩ := h2 t (q ++ b) ⟨a, by rw [← List.append_assoc]; exact h⟩
  obtain ⟨r', hr', e'⟩ := h1 r q (e ▸ List.prefix_append q b)
  exact ⟨r', hr'.isInfix.trans hr.isInfix, e'⟩

theorem Lifts.comp {F G : Str → Str} (hF : Lifts F) (hG : Lifts G) : Lifts fun t => G (F t) := by
  intro t q h
  obtain ⟨r, hr, e⟩ := hG _ q h
  obtain ⟨r', hr', e'⟩ := hF t r hr
  exact ⟨r', hr', by simp only [e', e]⟩

theorem lifts_map (f : Char → Char) : Lifts (List.map f) := by
  rintro t q ⟨a, b, h⟩
  obtain ⟨u, w, rfl, h1, -⟩ := List.map_eq_append_iff.1 h.symm
  obtain ⟨u', r, rfl, -, h2⟩ := List.map_eq_append_iff.1 h1
  exact ⟨r, ⟨u', w, rfl⟩, h2⟩

theorem lifts_filter (p : Char → Bool) : Lifts (List.filter p) := by
  rintro t q ⟨a, b, h⟩
  obtain ⟨u, w, rfl, h1, -⟩ := List.filter_eq_append_iff.1 h.symm
  obtain ⟨u', r, rfl, -, h2⟩ := List.filter_eq_append_iff.1 h1
  exact ⟨r, ⟨u', w, rfl⟩, h2⟩

theorem head_of_prefix {r t : Str} (h : r <+: t) (hr : r ≠ []) : r.head? = t.head? := by
  obtain ⟨s, rfl⟩ := h
  cases r with
  | nil => exact absurd rfl hr
  | cons _ _ => rfl

theorem lifts_squeeze (c : Char) : Lifts (squeeze c) := by
  refine lifts_of ?_ ?_
  · intro t
    induction t with
    | nil => intro q h; exact ⟨[], List.nil_prefix, (List.prefix_nil.1 h).symm⟩
    | cons a t ih =>
      intro q h
      by_cases hq : q = []
      · subst hq; exact ⟨[], List.nil_prefix, rfl⟩
      rw [squeeze] at h
      split at h
      · rename_i hc
        obtain ⟨r, hr, e⟩ := ih q h
        have hne : r ≠ [] := by rintro rfl; exact hq e.symm
        refine ⟨a :: r, List.cons_prefix_cons.2 ⟨rfl, hr⟩, ?_⟩
        rw [squeeze, if_pos ⟨hc.1, (head_of_prefix hr hne).trans hc.2⟩, e]
      · rename_i hc
        cases q with
        | nil => exact absurd rfl hq
        | cons b q =>
          obtain ⟨rfl, h'⟩ := List.cons_prefix_cons.1 h
          obtain ⟨r, hr, e⟩ := ih q h'
          refine ⟨b :: r, List.cons_prefix_cons.2 ⟨rfl, hr⟩, ?_⟩
          rw [squeeze, if_neg, e]
          rintro ⟨h1, h2⟩
          have hne : r ≠ [] := by rintro rfl; cases h2
          exact hc ⟨h1, (head_of_prefix hr hne).symm.trans h2⟩
  · intro t
    induction t with
    | nil => intro q h; exact ⟨[], List.nil_suffix, (List.suffix_nil.1 h).symm⟩
    | cons a t ih =>
      intro q h
      rw [squeeze] at h
      split at h
      · obtain ⟨r, hr, e⟩ := ih q h
        exact ⟨r, hr.trans (List.suffix_cons _ _), e⟩
      · rename_i hc
        rcases List.suffix_cons_iff.1 h with h | h
        · exact ⟨a :: t, List.suffix_refl _, by rw [squeeze, if_neg hc, h]⟩
        · obtain ⟨r, hr, e⟩ := ih q h
          exact ⟨r, hr.trans (List.suffix_cons _ _), e⟩

/-- The dotted-space rule: for parts without spaces at the ends. -/
theorem lifts_dGo (t q : Str) (h : q <:+: dGo false false t) (h1 : q.head? ≠ some ' ') (h2 : q.getLast? ≠ some ' ') :
    ∃ r, r <:+: t ∧ dGo false false r = q := by
  have suf : ∀ (t : Str) (p sp : Bool) (q : Str), q <:+ dGo p sp t → q.head? ≠ some ' ' →
      ∃ r, r <:+ t ∧ dGo false false r = q := by
    intro t
    induction t with
    | nil => intro p sp q h _; exact ⟨[], List.nil_suffix, (List.suffix_nil.1 h).symm⟩
    | cons c t ih =>
      intro p sp q h hq
      rw [dGo] at h
      split at h
      · obtain ⟨r, hr, e⟩ := ih _ _ q h hq
        exact ⟨r, hr.trans (List.suffix_cons _ _), e⟩
      · rename_i hc
        have key : q <:+ c :: dGo (isAsciiAlphanumeric c) false t := by
          split at h
          · rcases List.suffix_cons_iff.1 h with h | h
            · subst h; exact absurd rfl hq
            · exact h
          · exact h
        rcases List.suffix_cons_iff.1 key with h | h
        · exact ⟨c :: t, List.suffix_refl _, by rw [dGo, if_neg hc, h]; rfl⟩
        · obtain ⟨r, hr, e⟩ := ih _ _ q h hq
          exact ⟨r, hr.trans (List.suffix_cons _ _), e⟩
  have pre : ∀ (t : Str) (p sp : Bool) (q : Str), q <+: dGo p sp t → q.getLast? ≠ some ' ' →
      ∃ r, r <+: t ∧ dGo p sp r = q := by
    intro t
    induction t with
    | nil => intro p sp q h _; exact ⟨[], List.nil_prefix, (List.prefix_nil.1 h).symm⟩
    | cons c t ih =>
      intro p sp q h hq
      by_cases hne : q = []
      · subst hne; exact ⟨[], List.nil_prefix, rfl⟩
      rw [dGo] at h
      split at h
      · rename_i hc
        obtain ⟨r, hr, e⟩ := ih _ _ q h hq
        exact ⟨c :: r, List.cons_prefix_cons.2 ⟨rfl, hr⟩, by rw [dGo, if_pos hc, e]⟩
      · rename_i hc
        have tl : ∀ q', q' <+: c :: dGo (isAsciiAlphanumeric c) false t → q' ≠ [] → q'.getLast? ≠ some ' ' →
            ∃ r, r <+: t ∧ c :: dGo (isAsciiAlphanumeric c) false r = q' := by
          intro q' h h0 hl
          cases q' with
          | nil => exact absurd rfl h0
          | cons b q' =>
            obtain ⟨rfl, h'⟩ := List.cons_prefix_cons.1 h
            obtain ⟨r, hr, e⟩ := ih _ _ q' h' (by
              intro h'
              rw [List.getLast?_cons, h'] at hl
              exact hl rfl)
            exact ⟨r, hr, by rw [e]⟩
        split at h
        · rename_i hs
          cases q with
          | nil => exact absurd rfl hne
          | cons b q =>
            obtain ⟨rfl, h'⟩ := List.cons_prefix_cons.1 h
            have h0 : q ≠ [] := by rintro rfl; exact hq rfl
            obtain ⟨r, hr, e⟩ := tl q h' h0 (by
              intro h'
              rw [List.getLast?_cons, h'] at hq
              exact hq rfl)
            exact ⟨c :: r, List.cons_prefix_cons.2 ⟨rfl, hr⟩, by rw [dGo, if_neg hc, if_pos hs, e]; rfl⟩
        · rename_i hs
          obtain ⟨r, hr, e⟩ := tl q h hne hq
          exact ⟨c :: r, List.cons_prefix_cons.2 ⟨rfl, hr⟩, by rw [dGo, if_neg hc, if_neg hs, e]; rfl⟩
  obtain ⟨a, b, h⟩ := h
  by_cases hne : q = []
  · subst hne; exact ⟨[], List.nil_infix, rfl⟩
  obtain ⟨r, hr, e⟩ := suf t false false (q ++ b) ⟨a, by rw [← List.append_assoc]; exact h⟩ (by
    cases q with
    | nil => exact absurd rfl hne
    | cons _ _ => exact h1)
  obtain ⟨r', hr', e'⟩ := pre r false false q (e ▸ List.prefix_append q b) h2
  exact ⟨r', hr'.isInfix.trans hr.isInfix, e'⟩

theorem lifts_compose : Lifts composeMarks := by
  refine lifts_of ?_ ?_
  · intro t
    induction t using compose_induction with
    | h0 => intro q h; exact ⟨[], List.nil_prefix, (List.prefix_nil.1 h).symm⟩
    | h1 a =>
      intro q h
      rw [compose_one] at h
      cases q with
      | nil => exact ⟨[], List.nil_prefix, rfl⟩
      | cons b q =>
        obtain ⟨rfl, h'⟩ := List.cons_prefix_cons.1 h
        rw [List.prefix_nil.1 h']
        exact ⟨[b], List.prefix_refl _, rfl⟩
    | h2 a m t b hv ih =>
      intro q h
      rw [compose_hit hv] at h
      cases q with
      | nil => exact ⟨[], List.nil_prefix, rfl⟩
      | cons b q =>
        obtain ⟨rfl, h'⟩ := List.cons_prefix_cons.1 h
        obtain ⟨r, hr, e⟩ := ih q h'
        exact ⟨a :: m :: r, List.cons_prefix_cons.2 ⟨rfl, List.cons_prefix_cons.2 ⟨rfl, hr⟩⟩, by rw [compose_hit hv, e]⟩
    | h3 a m t hv ih =>
      intro q h
      rw [compose_keep hv] at h
      cases q with
      | nil => exact ⟨[], List.nil_prefix, rfl⟩
      | cons b q =>
        obtain ⟨rfl, h'⟩ := List.cons_prefix_cons.1 h
        obtain ⟨r, hr, e⟩ := ih q h'
        refine ⟨b :: r, List.cons_prefix_cons.2 ⟨rfl, hr⟩, ?_⟩
        cases r with
        | nil => rw [← e]; rfl
        | cons m' r =>
          obtain ⟨rfl, -⟩ := List.cons_prefix_cons.1 hr
          rw [compose_keep hv, e]
  · intro t
    induction t using compose_induction with
    | h0 => intro q h; exact ⟨[], List.nil_suffix, (List.suffix_nil.1 h).symm⟩
    | h1 a => intro q h; exact ⟨q, h, by
        rw [compose_one] at h
        rcases List.suffix_cons_iff.1 h with h | h
        · rw [h]; rfl
        · rw [List.suffix_nil.1 h]; rfl⟩
    | h2 a m t b hv ih =>
      intro q h
      rw [compose_hit hv] at h
      rcases List.suffix_cons_iff.1 h with h | h
      · exact ⟨_, List.suffix_refl _, by rw [compose_hit hv, h]⟩
      · obtain ⟨r, hr, e⟩ := ih q h
        exact ⟨r, (hr.trans (List.suffix_cons _ _)).trans (List.suffix_cons _ _), e⟩
    | h3 a m t hv ih =>
      intro q h
      rw [compose_keep hv] at h
      rcases List.suffix_cons_iff.1 h with h | h
      · exact ⟨_, List.suffix_refl _, by rw [compose_keep hv, h]⟩
      · obtain ⟨r, hr, e⟩ := ih q h
        exact ⟨r, hr.trans (List.suffix_cons _ _), e⟩

/-- Deleting characters: the part can be chosen with the same ends. -/
theorem lifts_filter_ends (p : Char → Bool) (t q : Str) (h : q <:+: t.filter p) :
    ∃ r, r <:+: t ∧ r.filter p = q ∧ r.head? = q.head? ∧ r.getLast? = q.getLast? := by
  obtain ⟨r, hr, e⟩ := lifts_filter p t q h
  cases q with
  | nil => exact ⟨[], List.nil_infix, rfl, rfl, rfl⟩
  | cons a q' =>
    obtain ⟨l1, l2, rfl, -, ha, e2⟩ := List.filter_eq_cons_iff.1 e
    have e3 : (a :: l2).filter p = a :: q' := by rw [List.filter_cons, if_pos ha, e2]
    have hq : a :: q' = (a :: q').dropLast ++ [(a :: q').getLast (by simp)] := (List.dropLast_concat_getLast _).symm
    rw [hq] at e3
    obtain ⟨x, y, hxy, hx, hy⟩ := List.filter_eq_append_iff.1 e3
    obtain ⟨y1, y2, rfl, hy1, hb, -⟩ := List.filter_eq_cons_iff.1 hy
    refine ⟨x ++ y1 ++ [(a :: q').getLast (by simp)], ?_, ?_, ?_, ?_⟩
    · refine List.IsInfix.trans ?_ hr
      exact ⟨l1, y2, by rw [hxy]; simp⟩
    · have hy1' : y1.filter p = [] := List.filter_eq_nil_iff.2 hy1
      rw [List.filter_append, List.filter_append, hx, hy1', List.append_nil, List.filter_cons, if_pos hb,
        List.filter_nil, ← hq]
    · have : (x ++ y1 ++ [(a :: q').getLast (by simp)]) <+: a :: l2 := ⟨y2, by rw [hxy]; simp⟩
      rw [head_of_prefix this (by simp)]
      rfl
    · rw [List.getLast?_append]
      simp [List.getLast?_eq_some_getLast]

theorem compose_ends (r : Str) : (r.head? = some ' ' → (composeMarks r).head? = some ' ') ∧
    (r.getLast? = some ' ' → (composeMarks r).getLast? = some ' ') := by
  induction r using compose_induction with
  | h0 => exact ⟨id, id⟩
  | h1 a => exact ⟨id, id⟩
  | h2 a m t b hv ih =>
    rw [compose_hit hv]
    constructor
    · intro h
      cases h
      rw [(voiced_space m).1] at hv
      cases hv
    · intro h
      cases t with
      | nil =>
        have h : m = ' ' := by simpa using h
        rw [h, (voiced_space a).2] at hv
        cases hv
      | cons d t =>
        rw [List.getLast?_cons, ih.2 (by simpa using h)]
        rfl
  | h3 a m t hv ih =>
    rw [compose_keep hv]
    constructor
    · exact id
    · intro h
      rw [List.getLast?_cons, ih.2 (by simpa using h)]
      rfl

/-- There is no space at either end. -/
def NoOuterSpace (q : Str) : Prop := q.head? ≠ some ' ' ∧ q.getLast? ≠ some ' '

/-- Parts of results are results of parts, as far as parts without outer spaces are concerned. -/
def LiftsWords (F : Str → Str) : Prop :=
  ∀ t q, q <:+: F t → NoOuterSpace q → ∃ r, r <:+: t ∧ F r = q ∧ NoOuterSpace r

theorem LiftsWords.comp {F G : Str → Str} (hF : LiftsWords F) (hG : LiftsWords G) : LiftsWords fun t => G (F t) := by
  intro t q h hq
  obtain ⟨r, hr, e, h1⟩ := hG _ q h hq
  obtain ⟨r', hr', e', h2⟩ := hF t r hr h1
  exact ⟨r', hr', by simp only [e', e], h2⟩

theorem liftsWords_map {f : Char → Char} (hf : f ' ' = ' ') : LiftsWords (List.map f) := by
  intro t q h hq
  obtain ⟨r, hr, rfl⟩ := lifts_map f t q h
  refine ⟨r, hr, rfl, fun h => hq.1 ?_, fun h => hq.2 ?_⟩
  · rw [List.head?_map, h]; exact congrArg some hf
  · rw [List.getLast?_map, h]; exact congrArg some hf

theorem liftsWords_filter (p : Char → Bool) : LiftsWords (List.filter p) := by
  intro t q h hq
  obtain ⟨r, hr, e, h1, h2⟩ := lifts_filter_ends p t q h
  exact ⟨r, hr, e, h1 ▸ hq.1, h2 ▸ hq.2⟩

theorem liftsWords_squeeze (c : Char) : LiftsWords (squeeze c) := by
  intro t q h hq
  obtain ⟨r, hr, rfl⟩ := lifts_squeeze c t q h
  exact ⟨r, hr, rfl, squeeze_head c r ▸ hq.1, squeeze_last c r ▸ hq.2⟩

theorem trim_part (r : Str) : trimModify r <:+: r ∧ NoOuterSpace (trimModify r) := by
  obtain ⟨a, b, e, h1, h2⟩ := trim_eq r
  exact ⟨⟨_, _, e.symm⟩, h1, h2⟩

theorem trim_words {r : Str} (h : NoOuterSpace r) : trimModify r = r := by
  obtain ⟨i, j, h3, h4, h5⟩ := trim_eq r
  exact trim_unique (a := i) (b := j) (a' := 0) (b' := 0) (h3.symm.trans (by simp)) h4 h5 h.1 h.2

theorem liftsWords_dotted : LiftsWords dottedModify := by
  intro t q h hq
  rw [dotted_eq_dGo] at h
  obtain ⟨r, hr, e⟩ := lifts_dGo t q h hq.1 hq.2
  refine ⟨trimModify r, (trim_part r).1.trans hr, ?_, (trim_part r).2⟩
  rw [show dottedModify (trimModify r) = dottedModify r from Outcome.ok.inj (C12_subsumes .insertion r).2.1, dotted_eq_dGo, e]

theorem liftsWords_trim : LiftsWords trimModify := fun t q h hq =>
  ⟨q, h.trans (trim_part t).1, trim_words hq, hq⟩

theorem liftsWords_compose : LiftsWords composeMarks := by
  intro t q h hq
  obtain ⟨r, hr, rfl⟩ := lifts_compose t q h
  exact ⟨r, hr, rfl, fun h => hq.1 ((compose_ends r).1 h), fun h => hq.2 ((compose_ends r).2 h)⟩

theorem liftsWords_neologdn : LiftsWords neologdnSpec := by
  have h := ((((liftsWords_map (f := neologdnFold) (by decide +kernel)).comp (liftsWords_squeeze 'ー')).comp liftsWords_dotted).comp
    (liftsWords_filter (fun c => decide (c ∉ tildeChars)))).comp liftsWords_compose
  have e : neologdnSpec = fun t => composeMarks ((dottedModify (squeeze 'ー' (t.map neologdnFold))).filter
      fun c => decide (c ∉ tildeChars)) := by
    funext t
    rw [neologdnSpec, dotted_eq]
  rw [e]
  exact h

theorem inPlace_lifts {m : ModifierKind} (h : m.InPlace) : ∃ F, Lifts F ∧ ∀ σ t, m.modify σ t = .ok (F t) := by
  cases m with
  | characterConverter x =>
    refine ⟨_, lifts_map fun c => (x.itemsMap.get? c).getD c, fun τ text => ?_⟩
    rw [show (ModifierKind.characterConverter x).modify τ text = x.modify τ text from rfl, modify_eq]
    rfl
  | characterEliminator x =>
    refine ⟨_, lifts_filter fun c => decide (c ∉ x.chars), fun τ text => ?_⟩
    rw [show (ModifierKind.characterEliminator x).modify τ text = .ok (x.modify text) from rfl, eliminator_eq]
  | consecutiveCharacterReducer x =>
    refine ⟨_, lifts_squeeze x.c, fun τ text => ?_⟩
    rw [show (ModifierKind.consecutiveCharacterReducer x).modify τ text = .ok (x.modify text) from rfl, reducer_eq]
  | _ => exact h.elim

theorem inPlace_run {ms : List ModifierKind} (h : ∀ m ∈ ms, m.InPlace) :
    ∃ F, Lifts F ∧ ∀ (σs : Nat → Oracle) i t,
      (ms.zipIdx i).foldlM (fun acc m => m.1.modify (σs m.2) acc) t = .ok (F t) := by
  induction ms with
  | nil => exact ⟨fun t => t, fun t q hq => ⟨q, hq, rfl⟩, fun σs i t => rfl⟩
  | cons m ms ih =>
    obtain ⟨G, hG, hg⟩ := ih fun m hm => h m (by simp [hm])
    obtain ⟨F, hF, hf⟩ := inPlace_lifts (h m (by simp))
    exact ⟨_, hF.comp hG, fun σs i t => by rw [List.zipIdx_cons, List.foldlM_cons, hf, Outcome.ok_bind, hg]⟩

/-- C107: converters, eliminators and reducers, however many: whatever is part of the normalised text is what becomes of
a part of the text. -/
theorem C107_part {c : Chanoma} (hc : ∀ m ∈ c.modifiers, m.InPlace) (σs τs : Nat → Oracle) (text out part : Str)
    (h : c.normalize σs false text = .ok out) (hp : part <:+: out) :
    ∃ piece, piece <:+: text ∧ c.normalize τs false piece = .ok part := by
  obtain ⟨F, hF, hf⟩ := inPlace_run hc
  have hn : ∀ σs t, c.normalize σs false t = .ok (F t) := fun σs t => hf σs 0 t
  rw [hn, Outcome.ok.injEq] at h
  subst h
  obtain ⟨r, hr, e⟩ := hF text part hp
  exact ⟨r, hr, by rw [hn, e]⟩

theorem liftsWords_modifier {m : ModifierKind} (hw : m.WF) (hl : ∀ x, m ≠ .ligatureTranslator x)
    (hs : ∀ x, m = .characterConverter x → ∀ τ, x.modify τ [' '] = .ok [' ']) :
    ∃ F, LiftsWords F ∧ ∀ σ t, m.modify σ t = .ok (F t) := by
  cases m with
  | characterConverter x =>
    refine ⟨_, liftsWords_map (f := fun c => (x.itemsMap.get? c).getD c) ?_, fun τ text => ?_⟩
    · have := hs x rfl .insertion
      rw [modify_eq, Outcome.ok.injEq] at this
      exact (List.cons.inj this).1
    · rw [show (ModifierKind.characterConverter x).modify τ text = x.modify τ text from rfl, modify_eq]
      rfl
  | characterEliminator x =>
    refine ⟨_, liftsWords_filter fun c => decide (c ∉ x.chars), fun τ text => ?_⟩
    rw [show (ModifierKind.characterEliminator x).modify τ text = .ok (x.modify text) from rfl, eliminator_eq]
  | consecutiveCharacterReducer x =>
    refine ⟨_, liftsWords_squeeze x.c, fun τ text => ?_⟩
    rw [show (ModifierKind.consecutiveCharacterReducer x).modify τ text = .ok (x.modify text) from rfl, reducer_eq]
  | dottedSpaceEliminator => exact ⟨_, liftsWords_dotted, fun τ text => rfl⟩
  | trim => exact ⟨_, liftsWords_trim, fun τ text => rfl⟩
  | ligatureTranslator x => exact absurd rfl (hl x)
  | neologdn x =>
    obtain ⟨σ', hx⟩ := hw
    obtain ⟨x', h1, -, h2, -⟩ := neologdn_new σ'
    rw [h1] at hx; cases hx
    exact ⟨_, liftsWords_neologdn, fun σ t => h2 σ t⟩

/-- C107: any pipeline without ligature translators whose converters leave the space alone: a part of the normalised text
that has no space at its ends is what becomes of a part of the text.  So a search has no false hits; and without
neologdn it has all of them. -/
theorem C107_search {c : Chanoma} (hb : ApiBuilt c) (hl : ∀ x, .ligatureTranslator x ∉ c.modifiers)
    (hs : ∀ x, .characterConverter x ∈ c.modifiers → ∀ τ, x.modify τ [' '] = .ok [' '])
    (σs τs : Nat → Oracle) (text out sought : Str) (h : c.normalize σs false text = .ok out)
    (h1 : sought.head? ≠ some ' ') (h2 : sought.getLast? ≠ some ' ') :
    (sought <:+: out → ∃ piece, piece <:+: text ∧ c.normalize τs false piece = .ok sought) ∧
    ((∀ m ∈ c.modifiers, m.IsPlain) →
      (sought <:+: out ↔ ∃ piece, piece <:+: text ∧ c.normalize τs false piece = .ok sought)) := by
  obtain ⟨F, hF, hf⟩ : ∃ F, LiftsWords F ∧ ∀ (σs : Nat → Oracle) t, c.normalize σs false t = .ok (F t) := by
    suffices ∀ ms : List ModifierKind, (∀ m ∈ ms, ∃ F, LiftsWords F ∧ ∀ σ t, m.modify σ t = .ok (F t)) →
        ∃ F, LiftsWords F ∧ ∀ (σs : Nat → Oracle) i t,
          (ms.zipIdx i).foldlM (fun acc m => m.1.modify (σs m.2) acc) t = .ok (F t) by
      obtain ⟨F, h1, h2⟩ := this c.modifiers fun m hm => liftsWords_modifier (apiBuilt_wf hb m hm)
        (fun x e => hl x (e ▸ hm)) (fun x e => hs x (e ▸ hm))
      exact ⟨F, h1, fun σs t => h2 σs 0 t⟩
    intro ms h
    induction ms with
    | nil => exact ⟨fun t => t, fun t q hq hn => ⟨q, hq, rfl, hn⟩, fun σs i t => rfl⟩
    | cons m ms ih =>
      obtain ⟨G, hG, hg⟩ := ih fun m hm => h m (by simp [hm])
      obtain ⟨F, hF, hf⟩ := h m (by simp)
      exact ⟨_, hF.comp hG, fun σs i t => by rw [List.zipIdx_cons, List.foldlM_cons, hf, Outcome.ok_bind, hg]⟩
  have fwd : sought <:+: out → ∃ piece, piece <:+: text ∧ c.normalize τs false piece = .ok sought := by
    intro hp
    rw [hf, Outcome.ok.injEq] at h
    subst h
    obtain ⟨r, hr, e, -⟩ := hF text sought hp ⟨h1, h2⟩
    exact ⟨r, hr, by rw [hf, e]⟩
  refine ⟨fwd, fun plain => ⟨fwd, ?_⟩⟩
  rintro ⟨piece, hp, e⟩
  obtain ⟨op, ot, h3, h4, -, -, h5⟩ := C74_contained c plain τs σs piece text
  rw [e] at h3
  rw [h] at h4
  cases h3
  cases h4
  exact h5 hp

/-- C107: where that does not hold.  A ligature translator: with the rule that makes `bb` of `a`, the normalised `b` is in
the normalised `a`, but no part of `a` becomes `b`.  A modifier behind the dotted-space rule: with an eliminator of `x`
there, the normalised `x x`, one space, is in the normalised `1 1`, but no part of `1 1` becomes one space. -/
theorem C107_false_hits (σ : Oracle) :
    (LigatureTranslator.modify ⟨[(c! "a", c! "bb")]⟩ σ (c! "b") <:+: LigatureTranslator.modify ⟨[(c! "a", c! "bb")]⟩ σ (c! "a") ∧
      ∀ piece, piece <:+: c! "a" → LigatureTranslator.modify ⟨[(c! "a", c! "bb")]⟩ σ piece ≠ c! "b") ∧
    ∃ (w : World) (path : OsStr) (c : Chanoma), Chanoma.fromConfigFile σ w path = .ok c ∧ ∀ σs : Nat → Oracle,
      c.normalize σs false (c! "x x") = .ok (c! " ") ∧ c.normalize σs false (c! "1 1") = .ok (c! "1 1") ∧
      ∀ piece, piece <:+: c! "1 1" → c.normalize σs false piece ≠ .ok (c! " ") := by
  have parts : ∀ (t piece : Str), piece <:+: t → piece ∈ (List.range (t.length + 1)).flatMap fun i =>
      (List.range (t.length + 1)).map fun j => (t.drop i).take j := by
    rintro t piece ⟨a, b, rfl⟩
    refine List.mem_flatMap.2 ⟨a.length, by simp; omega, List.mem_map.2 ⟨piece.length, by simp; omega, ?_⟩⟩
    simp
  refine ⟨⟨?_, fun piece h0 => ?_⟩, ?_⟩
  · simp only [one_rule]; exact ⟨[], ['b'], by decide⟩
  · rw [one_rule]
    have h := parts _ _ h0
    clear parts h0
    revert piece
    decide +kernel
  · refine ⟨.ofFiles [(p! "/c.yaml", .text [])] (fun _ => some (.mapping [(.string (c! "modifiers"),
      .mapping [(.string (c! "dotted_space_eliminator"), .null),
        (.string (c! "character_eliminator"), .sequence [.string (c! "x")])])])), p! "/c.yaml",
      ⟨[.dottedSpaceEliminator, .characterEliminator ⟨['x']⟩, .characterConverter ⟨[]⟩]⟩, rfl, fun σs => ?_⟩
    have hn : ∀ t, (Chanoma.mk [.dottedSpaceEliminator, .characterEliminator ⟨['x']⟩, .characterConverter ⟨[]⟩]).normalize σs
        false t = .ok ((CharacterEliminator.mk ['x']).modify (dottedModify t)) := by
      intro t
      rw [show ∀ c : Chanoma, ∀ t, c.normalize σs false t = c.modifiers.zipIdx.foldlM (fun acc m => m.1.modify (σs m.2) acc) t
        from fun _ _ => rfl]
      simp only [List.zipIdx_cons, List.zipIdx_nil, List.foldlM_cons, List.foldlM_nil, ModifierKind.modify, Outcome.ok_bind]
      rw [modify_eq]
      simp [substitute, HMap.get?]
    simp only [hn, Outcome.ok.injEq, ne_eq]
    refine ⟨by decide, by decide, fun piece h0 => ?_⟩
    have h := parts _ _ h0
    clear parts h0
    revert piece
    decide +kernel

/- A pipeline of the first theorem, and one of the second: the table has no item for the space. -/
example : ∀ m ∈ (Chanoma.mk [.consecutiveCharacterReducer ⟨'a'⟩, .characterEliminator ⟨['b']⟩]).modifiers, m.InPlace := by
  simp [ModifierKind.InPlace]
example : ∃ c, ApiBuilt c ∧ (∀ x, .ligatureTranslator x ∉ c.modifiers) ∧
    (∀ x, .characterConverter x ∈ c.modifiers → ∀ τ, x.modify τ [' '] = .ok [' ']) ∧ (∀ m ∈ c.modifiers, m.IsPlain) ∧
    ∀ σs, c.normalize σs false (c! "12  3あ 4") = .ok (c! "12 3あ4") := by
  refine ⟨⟨[.dottedSpaceEliminator, .trim, .characterConverter ⟨[]⟩]⟩, ?_, by simp, ?_, by simp [ModifierKind.IsPlain], fun σs => ?_⟩
  · exact .fromConfigFile (σ := .insertion) (path := p! "/c.yaml")
      (w := .ofFiles [(p! "/c.yaml", .text [])] (fun _ => some (.mapping [(.string (c! "modifiers"),
        .mapping [(.string (c! "dotted_space_eliminator"), .null), (.string (c! "trim"), .null)])]))) rfl
  · intro x hx τ
    simp only [List.mem_cons, ModifierKind.characterConverter.injEq, reduceCtorEq, List.not_mem_nil, or_false, false_or] at hx
    subst hx
    rw [modify_eq]; rfl
  · rw [show ∀ c : Chanoma, ∀ t, c.normalize σs false t = c.modifiers.zipIdx.foldlM (fun acc m => m.1.modify (σs m.2) acc) t
      from fun _ _ => rfl]
    simp only [List.zipIdx_cons, List.zipIdx_nil, List.foldlM_cons, List.foldlM_nil, ModifierKind.modify, Outcome.ok_bind]
    rw [modify_eq]; decide +kernel
/- `2 3` is found there; it is made of `2  3`. -/
example : c! "2 3" <:+: c! "12 3あ4" ∧ c! "2  3" <:+: c! "12  3あ 4" ∧ NoOuterSpace (c! "2 3") :=
  ⟨⟨c! "1", c! "あ4", rfl⟩, ⟨c! "1", c! "あ 4", rfl⟩, by decide, by decide⟩

end Chanoma
