import Verif.Proofs.Contained
import Verif.Props.Contained
import Verif.Props.Frame
import Verif.Props.SwapNeologdn
import Verif.Props.LigatureExact
import Verif.Proofs.Modifiers
/-! # Lemmas about texts in surroundings -/

namespace Chanoma

/-- What a neighbour can see of a text, as far as the dotted-space rule is concerned. -/
structure SameEdges (x y : Str) : Prop where
  empty : x = [] ↔ y = []
  blank : (∀ c ∈ x, c = ' ') ↔ ∀ c ∈ y, c = ' '
  first : IsAlnum (x.filter (· ≠ ' ')).head? ↔ IsAlnum (y.filter (· ≠ ' ')).head?
  last : IsAlnum (x.filter (· ≠ ' ')).getLast? ↔ IsAlnum (y.filter (· ≠ ' ')).getLast?
  lead : IsAlnum (x.filter (· ≠ ' ')).head? → (x.head? = some ' ' ↔ y.head? = some ' ')
  trail : IsAlnum (x.filter (· ≠ ' ')).getLast? → (x.getLast? = some ' ' ↔ y.getLast? = some ' ')

theorem SameEdges.left {x y : Str} (h : SameEdges x y) (u : Str) : JoinedBySpace u x ↔ JoinedBySpace u y := by
  unfold JoinedBySpace
  constructor
  · rintro ⟨h1, h2, h3⟩; exact ⟨h1, h.first.1 h2, h3.imp_right (h.lead h2).1⟩
  · rintro ⟨h1, h2, h3⟩
    have h2 := h.first.2 h2
    exact ⟨h1, h2, h3.imp_right (h.lead h2).2⟩

theorem visible_nil {x : Str} : x.filter (· ≠ ' ') = [] ↔ ∀ c ∈ x, c = ' ' := by
  simp [List.filter_eq_nil_iff]

theorem blank_last {x : Str} (h : ∀ c ∈ x, c = ' ') (h0 : x ≠ []) : x.getLast? = some ' ' := by
  rw [List.getLast?_eq_some_getLast h0, h _ (List.getLast_mem h0)]

theorem last_visible_append {u x : Str} (h : ¬ ∀ c ∈ x, c = ' ') :
    ((u ++ x).filter (· ≠ ' ')).getLast? = (x.filter (· ≠ ' ')).getLast? := by
  rw [List.filter_append, getLast_app (fun e => h (visible_nil.1 e))]

theorem last_visible_blank {u x : Str} (h : ∀ c ∈ x, c = ' ') :
    ((u ++ x).filter (· ≠ ' ')).getLast? = (u.filter (· ≠ ' ')).getLast? := by
  rw [List.filter_append, visible_nil.2 h, List.append_nil]

theorem SameEdges.right {x y : Str} (h : SameEdges x y) (u w : Str) :
    JoinedBySpace (u ++ x) w ↔ JoinedBySpace (u ++ y) w := by
  by_cases h0 : x = []
  · rw [h0, h.empty.1 h0]
  have h0' : y ≠ [] := fun e => h0 (h.empty.2 e)
  unfold JoinedBySpace
  rw [getLast_app h0, getLast_app h0']
  by_cases hb : ∀ c ∈ x, c = ' '
  · have hb' := h.blank.1 hb
    rw [last_visible_blank hb, last_visible_blank hb', blank_last hb h0, blank_last hb' h0']
  · have hb' : ¬ ∀ c ∈ y, c = ' ' := fun e => hb (h.blank.2 e)
    rw [last_visible_append hb, last_visible_append hb']
    constructor
    · rintro ⟨h1, h2, h3⟩; exact ⟨h.last.1 h1, h2, h3.imp_left (h.trail h1).1⟩
    · rintro ⟨h1, h2, h3⟩
      have h1 := h.last.2 h1
      exact ⟨h1, h2, h3.imp_left (h.trail h1).2⟩

/-! ## Text with optional spaces around it -/

/-- A space or none. -/
def opt (b : Bool) : Str := if b then [' '] else []

theorem opt_filter (b : Bool) : (opt b).filter (· ≠ ' ') = [] := by cases b <;> rfl

theorem opt_around {p q p' q' : Bool} {o o' : Str} (h : opt p ++ o ++ opt q = opt p' ++ o' ++ opt q')
    (h1 : o.head? ≠ some ' ') (h2 : o.getLast? ≠ some ' ') (h3 : o'.head? ≠ some ' ')
    (h4 : o'.getLast? ≠ some ' ') : o = o' ∧ (o ≠ [] → p = p' ∧ q = q') := by
  have e : ∀ b, opt b = List.replicate b.toNat ' ' := by intro b; cases b <;> rfl
  have ho : o = o' := by
    rw [e, e, e, e] at h
    exact trim_unique h h1 h2 h3 h4
  refine ⟨ho, fun hne => ?_⟩
  subst ho
  have hp : p = p' := by
    have := congrArg List.head? h
    cases p <;> cases p' <;> try rfl
    all_goals
      exfalso
      cases o with
      | nil => exact hne rfl
      | cons c o =>
        simp [opt] at this h1
        first | exact h1 this | exact h1 this.symm
  subst hp
  refine ⟨rfl, ?_⟩
  rw [List.append_assoc, List.append_assoc, List.append_cancel_left_eq, List.append_cancel_left_eq] at h
  cases q <;> cases q' <;> simp [opt] at h ⊢

theorem joined_one_left (x : Str) : JoinedBySpace (c! "1") x ↔
    IsAlnum (x.filter (· ≠ ' ')).head? ∧ x.head? = some ' ' := by
  unfold JoinedBySpace
  have : IsAlnum ((c! "1").filter (· ≠ ' ')).getLast? := by decide +kernel
  have h2 : (c! "1").getLast? ≠ some ' ' := by decide +kernel
  simp only [this, h2, true_and, false_or]

theorem joined_one_right (x : Str) : JoinedBySpace (c! "1" ++ x) (c! "1") ↔
    x ≠ [] ∧ x.getLast? = some ' ' ∧ ((∀ c ∈ x, c = ' ') ∨ IsAlnum (x.filter (· ≠ ' ')).getLast?) := by
  unfold JoinedBySpace
  have h1 : IsAlnum ((c! "1").filter (· ≠ ' ')).head? := by decide +kernel
  have h2 : (c! "1").head? ≠ some ' ' := by decide +kernel
  have h3 : IsAlnum ((c! "1").filter (· ≠ ' ')).getLast? := by decide +kernel
  have h4 : (c! "1").getLast? ≠ some ' ' := by decide +kernel
  simp only [h1, h2, true_and, or_false]
  by_cases h0 : x = []
  · subst h0
    simp only [List.append_nil, h4, and_false, ne_eq, not_true, false_and]
  rw [getLast_app h0]
  by_cases hb : ∀ c ∈ x, c = ' '
  · rw [last_visible_blank hb]
    simp only [h3, true_and, ne_eq, h0, not_false_eq_true]
    exact ⟨fun h => ⟨h, .inl hb⟩, fun h => h.1⟩
  · rw [last_visible_append hb]
    exact ⟨fun h => ⟨h0, h.2, .inr h.1⟩, fun h => ⟨h.2.2.resolve_left hb, h.2.1⟩⟩

theorem joined_wide_left (x : Str) : JoinedBySpace (c! "1 ") x ↔ IsAlnum (x.filter (· ≠ ' ')).head? := by
  unfold JoinedBySpace
  have : IsAlnum ((c! "1 ").filter (· ≠ ' ')).getLast? := by decide +kernel
  have h2 : (c! "1 ").getLast? = some ' ' := by decide +kernel
  simp only [this, h2, true_and, true_or, and_true]

theorem joined_wide_right (x : Str) : JoinedBySpace (c! "1 " ++ x) (c! " 1") ↔
    (∀ c ∈ x, c = ' ') ∨ IsAlnum (x.filter (· ≠ ' ')).getLast? := by
  unfold JoinedBySpace
  have h1 : IsAlnum ((c! " 1").filter (· ≠ ' ')).head? := by decide +kernel
  have h2 : (c! " 1").head? = some ' ' := by decide +kernel
  have h3 : IsAlnum ((c! "1 ").filter (· ≠ ' ')).getLast? := by decide +kernel
  simp only [h1, h2, or_true, and_true]
  by_cases hb : ∀ c ∈ x, c = ' '
  · rw [last_visible_blank hb]; exact iff_of_true h3 (.inl hb)
  · rw [last_visible_append hb]; exact ⟨.inr, fun h => h.resolve_left hb⟩

/-! ## The dotted-space rule -/

open Classical in
theorem dotted_around (x : Str) : dGo false false (c! "1" ++ x ++ c! "1") =
    c! "1" ++ (opt (decide (JoinedBySpace (c! "1") x)) ++ dGo false false x ++
      opt (decide (JoinedBySpace (c! "1" ++ x) (c! "1")))) ++ c! "1" := by
  rw [spaces_append, spaces_append, show dGo false false (c! "1") = c! "1" by decide +kernel]
  simp only [opt, decide_eq_true_eq, List.append_assoc]

theorem dotted_blank {x : Str} : dGo false false x = [] ↔ ∀ c ∈ x, c = ' ' := by
  constructor
  · intro h
    have := dGo_nonspace x false false
    rw [h] at this
    exact visible_nil.1 this.symm
  · intro h
    have e : x = List.replicate x.length ' ' := List.eq_replicate_iff.2 ⟨rfl, h⟩
    rw [e, dGo_replicate']

theorem dotted_ends (x : Str) : (dGo false false x).head? ≠ some ' ' ∧ (dGo false false x).getLast? ≠ some ' ' := by
  have hn := dotted_spacesOk x
  rw [dotted_eq_dGo] at hn
  generalize dGo false false x = o at *
  refine ⟨fun e => ?_, fun e => ?_⟩
  · cases o with
    | nil => cases e
    | cons c o => cases e; exact (hn [] o rfl).1.elim
  · obtain ⟨u, rfl⟩ := List.getLast?_eq_some_iff.1 e
    exact (hn u [] rfl).2.elim

theorem visible_ends {o : Str} (h1 : o.head? ≠ some ' ') (h2 : o.getLast? ≠ some ' ') :
    (o.filter (· ≠ ' ')).head? = o.head? ∧ (o.filter (· ≠ ' ')).getLast? = o.getLast? := by
  refine ⟨?_, ?_⟩
  · cases o with
    | nil => rfl
    | cons c o =>
      have : c ≠ ' ' := by simpa using h1
      simp [this]
  · cases ho : o.getLast? with
    | none => rw [List.getLast?_eq_none_iff.1 ho]; rfl
    | some c =>
      obtain ⟨u, rfl⟩ := List.getLast?_eq_some_iff.1 ho
      have : c ≠ ' ' := by simpa using h2
      simp [this]

theorem dotted_decides {x y : Str}
    (h : dGo false false (c! "1" ++ x ++ c! "1") = dGo false false (c! "1" ++ y ++ c! "1")) :
    dGo false false x = dGo false false y ∧ SameEdges x y := by
  rw [dotted_around, dotted_around, List.append_cancel_right_eq, List.append_cancel_left_eq] at h
  have hx := dotted_ends x
  have hy := dotted_ends y
  obtain ⟨ho, hs⟩ := opt_around h hx.1 hx.2 hy.1 hy.2
  refine ⟨ho, ?_⟩
  have hv : x.filter (· ≠ ' ') = y.filter (· ≠ ' ') := by
    rw [← dGo_nonspace x false false, ← dGo_nonspace y false false, ho]
  have hblank : (∀ c ∈ x, c = ' ') ↔ ∀ c ∈ y, c = ' ' := by rw [← visible_nil, ← visible_nil, hv]
  by_cases hb : ∀ c ∈ x, c = ' '
  · have hb' := hblank.1 hb
    have no : ∀ {z : Str}, (∀ c ∈ z, c = ' ') → ¬ IsAlnum (z.filter (· ≠ ' ')).head? ∧ ¬ IsAlnum (z.filter (· ≠ ' ')).getLast? := by
      intro z hz
      rw [visible_nil.2 hz]
      exact ⟨id, id⟩
    refine ⟨?_, hblank, by rw [hv], by rw [hv], fun e => absurd e (no hb).1, fun e => absurd e (no hb).2⟩
    have e1 : ∀ {z : Str}, (∀ c ∈ z, c = ' ') → ¬ JoinedBySpace (c! "1") z := fun hz e =>
      (no hz).1 ((joined_one_left _).1 e).1
    have e2 : ∀ {z : Str}, (∀ c ∈ z, c = ' ') → (JoinedBySpace (c! "1" ++ z) (c! "1") ↔ z ≠ []) := fun hz => by
      rw [joined_one_right]
      exact ⟨fun e => e.1, fun e => ⟨e, blank_last hz e, .inl hz⟩⟩
    rw [dotted_blank.2 hb, dotted_blank.2 hb'] at h
    simp only [e1 hb, e1 hb', e2 hb, e2 hb'] at h
    by_cases hx0 : x = [] <;> by_cases hy0 : y = [] <;> simp [opt, hx0, hy0] at h ⊢
  · have hb' : ¬ ∀ c ∈ y, c = ' ' := fun e => hb (hblank.2 e)
    have h0 : x ≠ [] := fun e => hb (by simp [e])
    have h0' : y ≠ [] := fun e => hb' (by simp [e])
    obtain ⟨hp, hq⟩ := hs (fun e => hb (dotted_blank.1 e))
    rw [decide_eq_decide, joined_one_left, joined_one_left, hv] at hp
    rw [decide_eq_decide, joined_one_right, joined_one_right, hv] at hq
    refine ⟨iff_of_false h0 h0', hblank, by rw [hv], by rw [hv], fun e => ?_, fun e => ?_⟩
    · rw [hv] at e
      exact ⟨fun k => (hp.1 ⟨e, k⟩).2, fun k => (hp.2 ⟨e, k⟩).2⟩
    · rw [hv] at e
      exact ⟨fun k => (hq.1 ⟨h0, k, .inr e⟩).2.1, fun k => (hq.2 ⟨h0', k, .inr e⟩).2.1⟩

theorem dotted_same {x y : Str} (h : dGo false false x = dGo false false y) (he : SameEdges x y) (u w : Str) :
    dGo false false (u ++ x ++ w) = dGo false false (u ++ y ++ w) := by
  classical
  rw [spaces_append, spaces_append (u ++ y), spaces_append, spaces_append u y, h]
  simp only [he.left u, he.right u w]

/-! ## Neologdn -/

theorem joined_unique {a b o : Str} (h : Joined a b (neologdnSpec a) (neologdnSpec b) o) :
    o = neologdnSpec (a ++ b) := by
  let σ : Oracle := Oracle.insertion
  obtain ⟨c, h1, h2⟩ := C16_neologdn σ
  obtain ⟨oa, ob, o', ha, hb, ho, -, hu⟩ := C74_neologdn_joined σ c h1 (fun _ => σ) false a b
  rw [h2] at ha hb ho
  cases ha; cases hb; cases ho
  exact hu o h

theorem joined_congr {a b a' b' : Str} (ha : neologdnSpec a = neologdnSpec a') (hb : neologdnSpec b = neologdnSpec b')
    (h1 : (a.map neologdnFold).getLast? = some 'ー' ↔ (a'.map neologdnFold).getLast? = some 'ー')
    (h2 : (b.map neologdnFold).head? = some 'ー' ↔ (b'.map neologdnFold).head? = some 'ー')
    (h3 : JoinedBySpace (a.map neologdnFold) (b.map neologdnFold) ↔
      JoinedBySpace (a'.map neologdnFold) (b'.map neologdnFold)) :
    neologdnSpec (a ++ b) = neologdnSpec (a' ++ b') := by
  have hj := neologdn_joined a b
  refine joined_unique (a := a') (b := b') ?_
  generalize neologdnSpec (a ++ b) = o at hj ⊢
  have hcut : CutAt a b .neologdn → CutAt a' b' .neologdn := by
    rintro ⟨k1, k2, k3⟩
    refine ⟨by rw [← h1, ← h2]; exact k1, by rw [← h3]; exact k2, ?_⟩
    rw [← ha, ← hb]; exact k3
  rw [← ha, ← hb]
  cases hj with
  | compose z h => exact .compose z h
  | choonpu k1 k2 => exact .choonpu (h1.1 k1) (h2.1 k2)
  | space k => exact .space (h3.1 k)
  | plain k => exact .plain (hcut k)

theorem spec_ends (t : Str) : (neologdnSpec t).head? ≠ some ' ' ∧ (neologdnSpec t).getLast? ≠ some ' ' := by
  obtain ⟨_, _, -, h1, h2⟩ := trim_eq (neologdnSpec t)
  rw [trim_spec] at h1 h2
  exact ⟨h1, h2⟩

theorem spec_alnum {t : Str} {c : Char} (hc : c ∈ t.map neologdnFold) (h : IsAlnum (some c)) :
    neologdnSpec t ≠ [] := by
  intro e
  have hs := spec_flatMap (fun c => if isAsciiAlphanumeric c = true then [c] else []) (by decide +kernel)
    (by decide +kernel) (by decide +kernel) (fun a m b hv => by
      have hf := voiced_facts hv
      simp [hf.1, hf.2.1, hf.2.2.1]) t
  rw [e, ← filter_eq_flatMap, ← filter_eq_flatMap] at hs
  have hm := List.mem_filter.2 ⟨hc, (isAlnum_iff c).2 h⟩
  rw [← hs] at hm
  cases hm

theorem spec_first {t : Str} (h : IsAlnum ((t.map neologdnFold).filter (· ≠ ' ')).head?) : neologdnSpec t ≠ [] := by
  cases hc : ((t.map neologdnFold).filter (· ≠ ' ')).head? with
  | none => rw [hc] at h; exact h.elim
  | some c => rw [hc] at h; exact spec_alnum (List.mem_filter.1 (List.mem_of_head? hc)).1 h

theorem spec_last {t : Str} (h : IsAlnum ((t.map neologdnFold).filter (· ≠ ' ')).getLast?) : neologdnSpec t ≠ [] := by
  cases hc : ((t.map neologdnFold).filter (· ≠ ' ')).getLast? with
  | none => rw [hc] at h; exact h.elim
  | some c => rw [hc] at h; exact spec_alnum (List.mem_filter.1 (List.mem_of_getLast? hc)).1 h

theorem spec_blank {t : Str} (h : ∀ c ∈ t.map neologdnFold, c = ' ') : neologdnSpec t = [] := by
  have e : t.map neologdnFold = List.replicate t.length ' ' := List.eq_replicate_iff.2 ⟨by simp, h⟩
  rw [neologdnSpec, e]
  obtain ⟨k, hk⟩ := squeeze_spaces 'ー' t.length
  rw [hk, ← dotted_eq, dotted_eq_dGo, dGo_replicate']; rfl

/-- Nothing happens to text between two neighbours that neither compose nor are prolonged sound marks,
apart from spaces. -/
theorem spec_pair {a b : Str} (h1 : (a.map neologdnFold).getLast? ≠ some 'ー' ∨ (b.map neologdnFold).head? ≠ some 'ー')
    (h2 : ∀ x y, (neologdnSpec a).getLast? = some x → (neologdnSpec b).head? = some y → voiced x y = none)
    (d : Bool) (hd : d = true ↔ JoinedBySpace (a.map neologdnFold) (b.map neologdnFold)) :
    neologdnSpec (a ++ b) = neologdnSpec a ++ opt d ++ neologdnSpec b := by
  cases d with
  | true => rw [← joined_unique (.space (hd.1 rfl))]; simp [opt]
  | false =>
    have hcut : CutAt a b .neologdn :=
      ⟨fun h => h1.elim (· h.1) (· h.2), fun h => Bool.false_ne_true (hd.2 h), h2⟩
    rw [← joined_unique (.plain hcut)]
    simp [opt]

theorem voiced_digit (x : Char) : voiced '1' x = none ∧ voiced x '1' = none := by
  refine ⟨?_, voiced_none (by decide) (by decide)⟩
  cases h : voiced '1' x with
  | none => rfl
  | some b => exact absurd (voiced_facts h).1 (by decide +kernel)

open Classical in
theorem spec_around (a l r : Str) (hl : (l.map neologdnFold).getLast? ≠ some 'ー')
    (hr : (r.map neologdnFold).head? ≠ some 'ー') (hl' : neologdnSpec l = c! "1") (hr' : neologdnSpec r = c! "1") :
    neologdnSpec (l ++ a ++ r) = c! "1" ++
      (opt (decide (JoinedBySpace (l.map neologdnFold) (a.map neologdnFold))) ++ neologdnSpec a ++
        opt (decide (JoinedBySpace (l.map neologdnFold ++ a.map neologdnFold) (r.map neologdnFold)))) ++ c! "1" := by
  rw [spec_pair (.inr hr) ?_ (decide (JoinedBySpace (l.map neologdnFold ++ a.map neologdnFold) (r.map neologdnFold)))
    (by rw [decide_eq_true_eq, List.map_append]),
    spec_pair (.inl hl) ?_ (decide (JoinedBySpace (l.map neologdnFold) (a.map neologdnFold))) (by rw [decide_eq_true_eq]),
    hl', hr']
  · simp only [List.append_assoc]
  · intro x y hx _
    rw [hl'] at hx; cases hx; exact (voiced_digit y).1
  · intro x y _ hy
    rw [hr'] at hy; cases hy; exact (voiced_digit x).2

theorem spec_choonpu_head {b : Str} (h : (b.map neologdnFold).head? = some 'ー') : neologdnSpec b ≠ [] := by
  cases b with
  | nil => cases h
  | cons c b =>
    have hc : neologdnFold c = 'ー' := by simpa using h
    have h1 : neologdnSpec [c] = ['ー'] := by
      rw [neologdnSpec, List.map_singleton, hc]; decide +kernel
    have h2 : neologdnSpec [c] <+: neologdnSpec ([c] ++ b) := (keeps_iff [c] b).1.2 (by
      rintro z ⟨x, y, hx, -, hv⟩
      rw [h1] at hx
      cases (show 'ー' = x from Option.some.inj hx)
      rw [(voiced_choonpu y).1] at hv; cases hv)
    intro e
    rw [show [c] ++ b = c :: b from rfl, e, h1] at h2
    exact absurd (List.prefix_nil.1 h2) (by simp)

theorem spec_choonpu_last {a : Str} (h : (a.map neologdnFold).getLast? = some 'ー') : neologdnSpec a ≠ [] := by
  obtain ⟨a', ha'⟩ := List.getLast?_eq_some_iff.1 h
  have := neologdn_last (a := a) (c := 'ー') (by rw [ha']; simp) (by decide) (by decide) (by decide)
  intro e
  rw [e] at this; cases this

theorem spec_after_choonpu (a : Str) : ((a.map neologdnFold).head? = some 'ー' →
      (neologdnSpec (c! "ー" ++ a)).length = (neologdnSpec a).length) ∧
    ((a.map neologdnFold).head? ≠ some 'ー' →
      (neologdnSpec (c! "ー" ++ a)).length = (neologdnSpec a).length + 1) := by
  have h1 : neologdnSpec (c! "ー") = c! "ー" := by decide +kernel
  have h2 : ((c! "ー").map neologdnFold).getLast? = some 'ー' := by decide +kernel
  refine ⟨fun h => ?_, fun h => ?_⟩
  · rw [← joined_unique (.choonpu h2 h), h1]
    have := List.length_pos_iff.2 (spec_choonpu_head h)
    simp; omega
  · rw [spec_pair (.inr h) ?_ false ?_, h1]
    · simp [opt]
    · intro x y hx _
      rw [h1] at hx; cases hx; exact (voiced_choonpu y).1
    · refine iff_of_false (by simp) (fun e => ?_)
      have := e.1
      revert this; decide +kernel

theorem spec_before_choonpu (a : Str) : ((a.map neologdnFold).getLast? = some 'ー' →
      (neologdnSpec (a ++ c! "ー")).length = (neologdnSpec a).length) ∧
    ((a.map neologdnFold).getLast? ≠ some 'ー' →
      (neologdnSpec (a ++ c! "ー")).length = (neologdnSpec a).length + 1) := by
  have h1 : neologdnSpec (c! "ー") = c! "ー" := by decide +kernel
  have h2 : ((c! "ー").map neologdnFold).head? = some 'ー' := by decide +kernel
  refine ⟨fun h => ?_, fun h => ?_⟩
  · rw [← joined_unique (.choonpu h h2), h1]
    simp
  · rw [spec_pair (.inl h) ?_ false ?_, h1]
    · simp [opt]
    · intro x y _ hy
      rw [h1] at hy; cases hy; exact (voiced_choonpu x).2
    · refine iff_of_false (by simp) (fun e => ?_)
      have := e.2.1
      revert this; decide +kernel

theorem neologdn_decides {a b : Str}
    (h1 : neologdnSpec (c! "1" ++ a ++ c! "1") = neologdnSpec (c! "1" ++ b ++ c! "1"))
    (h2 : neologdnSpec (c! "1 " ++ a ++ c! " 1") = neologdnSpec (c! "1 " ++ b ++ c! " 1")) :
    neologdnSpec a = neologdnSpec b ∧ SameEdges (a.map neologdnFold) (b.map neologdnFold) := by
  have e1 : (c! "1").map neologdnFold = c! "1" := by decide +kernel
  have e2 : (c! "1 ").map neologdnFold = c! "1 " := by decide +kernel
  have e3 : (c! " 1").map neologdnFold = c! " 1" := by decide +kernel
  rw [spec_around a _ _ (by decide +kernel) (by decide +kernel) (by decide +kernel) (by decide +kernel),
    spec_around b _ _ (by decide +kernel) (by decide +kernel) (by decide +kernel) (by decide +kernel),
    List.append_cancel_right_eq, List.append_cancel_left_eq, e1] at h1
  rw [spec_around a _ _ (by decide +kernel) (by decide +kernel) (by decide +kernel) (by decide +kernel),
    spec_around b _ _ (by decide +kernel) (by decide +kernel) (by decide +kernel) (by decide +kernel),
    List.append_cancel_right_eq, List.append_cancel_left_eq, e2, e3] at h2
  have ha := spec_ends a
  have hb := spec_ends b
  obtain ⟨ho, hs1⟩ := opt_around h1 ha.1 ha.2 hb.1 hb.2
  obtain ⟨-, hs2⟩ := opt_around h2 ha.1 ha.2 hb.1 hb.2
  refine ⟨ho, ?_⟩
  have fa := spec_first (t := a)
  have la := spec_last (t := a)
  have fb := spec_first (t := b)
  have lb := spec_last (t := b)
  have ba := spec_blank (t := a)
  have bb := spec_blank (t := b)
  rw [← ho] at fb lb bb h1 h2
  generalize a.map neologdnFold = x at *
  generalize b.map neologdnFold = y at *
  generalize neologdnSpec a = o at *
  by_cases h0 : o = []
  · have fa' : ¬ IsAlnum (x.filter (· ≠ ' ')).head? := fun e => fa e h0
    have la' : ¬ IsAlnum (x.filter (· ≠ ' ')).getLast? := fun e => la e h0
    have fb' : ¬ IsAlnum (y.filter (· ≠ ' ')).head? := fun e => fb e h0
    have lb' : ¬ IsAlnum (y.filter (· ≠ ' ')).getLast? := fun e => lb e h0
    have key : ∀ p q, opt p = opt q → p = q := by intro p q; cases p <;> cases q <;> simp [opt]
    simp only [joined_wide_left, joined_wide_right, fa', la', fb', lb', h0, or_false, decide_false] at h2
    simp only [joined_one_left, joined_one_right, fa', la', fb', lb', h0, or_false, false_and, decide_false] at h1
    have h2 := decide_eq_decide.1 (key _ _ h2)
    have h1 := decide_eq_decide.1 (key _ _ h1)
    refine ⟨?_, h2, iff_of_false fa' fb', iff_of_false la' lb', fun e => absurd e fa', fun e => absurd e la'⟩
    by_cases hb : ∀ c ∈ x, c = ' '
    · have hb' := h2.1 hb
      constructor
      · intro e
        refine Classical.byContradiction fun n => (h1.2 ⟨n, blank_last hb' n, hb'⟩).1 e
      · intro e
        refine Classical.byContradiction fun n => (h1.1 ⟨n, blank_last hb n, hb⟩).1 e
    · have hb' : ¬ ∀ c ∈ y, c = ' ' := fun e => hb (h2.2 e)
      exact iff_of_false (fun e => hb (by simp [e])) (fun e => hb' (by simp [e]))
  · obtain ⟨p1, q1⟩ := hs1 h0
    obtain ⟨p2, q2⟩ := hs2 h0
    have hb : ¬ ∀ c ∈ x, c = ' ' := fun e => h0 (ba e)
    have hb' : ¬ ∀ c ∈ y, c = ' ' := fun e => h0 (bb e)
    have n0 : x ≠ [] := fun e => hb (by simp [e])
    have n0' : y ≠ [] := fun e => hb' (by simp [e])
    have p2 := decide_eq_decide.1 p2
    have q2 := decide_eq_decide.1 q2
    have p1 := decide_eq_decide.1 p1
    have q1 := decide_eq_decide.1 q1
    rw [joined_wide_left, joined_wide_left] at p2
    rw [joined_wide_right, joined_wide_right, or_iff_right hb, or_iff_right hb'] at q2
    rw [joined_one_left, joined_one_left] at p1
    rw [joined_one_right, joined_one_right, or_iff_right hb, or_iff_right hb'] at q1
    refine ⟨iff_of_false n0 n0', iff_of_false hb hb', p2, q2, fun e => ?_, fun e => ?_⟩
    · exact ⟨fun k => (p1.1 ⟨e, k⟩).2, fun k => (p1.2 ⟨p2.1 e, k⟩).2⟩
    · exact ⟨fun k => (q1.1 ⟨n0, k, e⟩).2.1, fun k => (q1.2 ⟨n0', k, q2.1 e⟩).2.1⟩

theorem neologdn_same {a b : Str} (h : neologdnSpec a = neologdnSpec b)
    (he : SameEdges (a.map neologdnFold) (b.map neologdnFold))
    (h3 : neologdnSpec (c! "ー" ++ a) = neologdnSpec (c! "ー" ++ b))
    (h4 : neologdnSpec (a ++ c! "ー") = neologdnSpec (b ++ c! "ー")) (u w : Str) :
    neologdnSpec (u ++ a ++ w) = neologdnSpec (u ++ b ++ w) := by
  have hh : (a.map neologdnFold).head? = some 'ー' ↔ (b.map neologdnFold).head? = some 'ー' := by
    have ea := spec_after_choonpu a
    have eb := spec_after_choonpu b
    rw [h3, h] at ea
    constructor
    · intro k; refine Classical.byContradiction fun n => ?_
      have := (ea.1 k).symm.trans (eb.2 n); omega
    · intro k; refine Classical.byContradiction fun n => ?_
      have := (eb.1 k).symm.trans (ea.2 n); omega
  have hl : (a.map neologdnFold).getLast? = some 'ー' ↔ (b.map neologdnFold).getLast? = some 'ー' := by
    have ea := spec_before_choonpu a
    have eb := spec_before_choonpu b
    rw [h4, h] at ea
    constructor
    · intro k; refine Classical.byContradiction fun n => ?_
      have := (ea.1 k).symm.trans (eb.2 n); omega
    · intro k; refine Classical.byContradiction fun n => ?_
      have := (eb.1 k).symm.trans (ea.2 n); omega
  refine joined_congr (joined_congr rfl h Iff.rfl hh (he.left _)) rfl ?_ Iff.rfl ?_
  · rw [List.map_append, List.map_append]
    by_cases h0 : a.map neologdnFold = []
    · rw [h0, he.empty.1 h0]
    · rw [getLast_app h0, getLast_app (fun e => h0 (he.empty.2 e))]; exact hl
  · rw [List.map_append, List.map_append]
    exact he.right _ _

/-! ## One ligature rule -/

/-- Of what has been read only the beginning of a key at the end still counts. -/
theorem strReplace_pending {k : Str} (hk : k ≠ []) (v u : Str) : ∃ s p r, k = p ++ r ∧ r ≠ [] ∧
    ∀ w, strReplace k v (u ++ w) = s ++ strReplace k v (p ++ w) := by
  suffices ∀ n, ∀ u : Str, u.length ≤ n → ∃ s p r, k = p ++ r ∧ r ≠ [] ∧
      ∀ w, strReplace k v (u ++ w) = s ++ strReplace k v (p ++ w) from this _ u (Nat.le_refl _)
  intro n
  induction n with
  | zero =>
    intro u hu
    rw [List.length_eq_zero_iff.1 (Nat.le_zero.1 hu)]
    exact ⟨[], [], k, rfl, hk, fun w => rfl⟩
  | succ n ih =>
    intro u hu
    by_cases h1 : k <+: u
    · obtain ⟨t, rfl⟩ := h1
      have := List.length_pos_iff.2 hk
      obtain ⟨s, p, r, e, hr, hw⟩ := ih t (by simp at hu; omega)
      refine ⟨v ++ s, p, r, e, hr, fun w => ?_⟩
      rw [List.append_assoc, strReplace_hit hk, hw, List.append_assoc]
    · by_cases h2 : u <+: k
      · obtain ⟨r, rfl⟩ := h2
        refine ⟨[], u, r, rfl, fun e => h1 (by rw [e]; simp), fun w => rfl⟩
      · cases u with
        | nil => exact absurd List.nil_prefix h2
        | cons c u =>
          obtain ⟨s, p, r, e, hr, hw⟩ := ih u (by simpa using hu)
          refine ⟨c :: s, p, r, e, hr, fun w => ?_⟩
          rw [List.cons_append, strReplace_keep hk v ?_, hw]; rfl
          intro h3
          rcases List.prefix_or_prefix_of_prefix h3 (List.prefix_append (c :: u) w) with h4 | h4
          · exact h1 h4
          · exact h2 h4

theorem strReplace_same {k v : Str} (hk : k ≠ []) {a b : Str}
    (h : ∀ u w : Str, u.length < k.length → w.length < k.length →
      strReplace k v (u ++ a ++ w) = strReplace k v (u ++ b ++ w)) (u w : Str) :
    strReplace k v (u ++ a ++ w) = strReplace k v (u ++ b ++ w) := by
  have hpos := List.length_pos_iff.2 hk
  by_cases hv : v = k
  · have := h [] [] hpos hpos
    subst hv
    simp only [strReplace_self hk] at this ⊢
    simp only [List.nil_append, List.append_nil] at this
    rw [this]
  obtain ⟨s, p, r, hp, hr, e⟩ := strReplace_pending hk v u
  have hpl : p.length < k.length := by
    have := List.length_pos_iff.2 hr
    rw [hp, List.length_append]; omega
  rw [List.append_assoc, List.append_assoc, e, e, ← List.append_assoc, ← List.append_assoc]
  congr 1
  have key : ∀ {x y : Str}, (∀ w : Str, w.length < k.length → strReplace k v (x ++ w) = strReplace k v (y ++ w)) →
      ∀ {s1 q1 r1 s2 q2 r2 : Str}, k = q1 ++ r1 → r1 ≠ [] → k = q2 ++ r2 → r2 ≠ [] →
      (∀ w, strReplace k v (x ++ w) = s1 ++ strReplace k v (q1 ++ w)) →
      (∀ w, strReplace k v (y ++ w) = s2 ++ strReplace k v (q2 ++ w)) →
      q2.length ≤ q1.length → ∀ w, strReplace k v (x ++ w) = strReplace k v (y ++ w) := by
    intro x y hxy s1 q1 r1 s2 q2 r2 k1 n1 k2 n2 e1 e2 hle w
    have l1 := List.length_pos_iff.2 n1
    have l2 := List.length_pos_iff.2 n2
    have m1 := congrArg List.length k1
    have m2 := congrArg List.length k2
    rw [List.length_append] at m1 m2
    have h0 := hxy [] hpos
    rw [e1, e2, List.append_nil, List.append_nil, strReplace_short hk v q1 (by omega),
      strReplace_short hk v q2 (by omega)] at h0
    have hq : q2 <:+ q1 := List.suffix_of_suffix_length_le (l₃ := s1 ++ q1) (by rw [h0]; exact List.suffix_append _ _)
      (List.suffix_append _ _) hle
    obtain ⟨t, ht⟩ := hq
    have hs : s2 = s1 ++ t := by
      rw [← ht, ← List.append_assoc, List.append_cancel_right_eq] at h0
      exact h0.symm
    by_cases ht0 : t = []
    · rw [ht0, List.nil_append] at ht
      rw [ht0, List.append_nil] at hs
      rw [e1, e2, ht, hs]
    · exfalso
      have lt := List.length_pos_iff.2 ht0
      have mt := congrArg List.length ht
      rw [List.length_append] at mt
      have h3 := hxy r1 (by omega)
      rw [e1, e2, ← k1, hs, List.append_assoc, List.append_cancel_left_eq,
        strReplace_short hk v (q2 ++ r1) (by rw [List.length_append]; omega)] at h3
      have h4 := strReplace_hit hk v []
      rw [List.append_nil, strReplace_nil hk, List.append_nil] at h4
      rw [h4, ← List.append_assoc, ht, ← k1] at h3
      exact hv h3
  obtain ⟨s1, q1, r1, k1, n1, e1⟩ := strReplace_pending hk v (p ++ a)
  obtain ⟨s2, q2, r2, k2, n2, e2⟩ := strReplace_pending hk v (p ++ b)
  rcases Nat.le_total q2.length q1.length with hle | hle
  · exact key (fun w hw => h p w hpl hw) k1 n1 k2 n2 e1 e2 hle w
  · exact (key (fun w hw => (h p w hpl hw).symm) k2 n2 k1 n1 e2 e1 hle w).symm

end Chanoma
