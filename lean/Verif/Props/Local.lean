import Verif.Spec.Local
import Verif.Props.Front
import Verif.Props.Context
/-! # C93: a change in a text has only local effect -/

namespace Chanoma

/-- What stands around a place decides all of the result but at most `h n` characters, if at most `n`
characters stand at the place. -/
def Windowed (h : Nat → Nat) (f : Str → Str) : Prop := ∀ n p s, ∃ p' s', ∀ a : Str, a.length ≤ n →
  ∃ y, f (p ++ a ++ s) = p' ++ y ++ s' ∧ y.length ≤ h n

theorem Windowed.near {h : Nat → Nat} {f : Str → Str} (hf : Windowed h f) {n : Nat} {x y : Str} (hn : Near n x y) :
    Near (h n) (f x) (f y) := by
  obtain ⟨p, a, b, s, rfl, rfl, ha, hb⟩ := hn
  obtain ⟨p', s', hw⟩ := hf n p s
  obtain ⟨ya, h1, h2⟩ := hw a ha
  obtain ⟨yb, h3, h4⟩ := hw b hb
  exact ⟨p', ya, yb, s', h1, h3, h2, h4⟩

theorem Near.mono {m n : Nat} (h : m ≤ n) {x y : Str} (hn : Near m x y) : Near n x y := by
  obtain ⟨p, a, b, s, h1, h2, h3, h4⟩ := hn
  exact ⟨p, a, b, s, h1, h2, Nat.le_trans h3 h, Nat.le_trans h4 h⟩

theorem Near.length {n : Nat} {x y : Str} (h : Near n x y) : x.length ≤ y.length + n ∧ y.length ≤ x.length + n := by
  obtain ⟨p, a, b, s, rfl, rfl, h1, h2⟩ := h
  simp only [List.length_append]
  omega

theorem squeeze_len (c : Char) (t : Str) : (squeeze c t).length ≤ t.length := (squeeze_sublist c t).length_le

theorem squeeze_windowed (c : Char) : Windowed (· + 1) (squeeze c) := by
  intro n p s
  refine ⟨squeeze c p, (squeeze c s).tail, fun a ha => ?_⟩
  obtain ⟨z, hz, hl, h0⟩ : ∃ z : Str, squeeze c (a ++ s) = z ++ (squeeze c s).tail ∧ z.length ≤ n + 1 ∧
      (z = [] → squeeze c (a ++ s) = []) := by
    have := squeeze_len c a
    by_cases h : a.getLast? = some c ∧ s.head? = some c
    · refine ⟨_, squeeze_join h.1 h.2, by omega, fun e => ?_⟩
      have := squeeze_last c a
      rw [e, h.1] at this; cases this
    · refine ⟨squeeze c a ++ (squeeze c s).take 1, ?_, ?_, fun e => ?_⟩
      · rw [squeeze_append c a s h, List.append_assoc, ← List.drop_one, List.take_append_drop]
      · rw [List.length_append, List.length_take]; omega
      · rw [squeeze_append c a s h]
        rw [List.append_eq_nil_iff] at e ⊢
        refine ⟨e.1, ?_⟩
        cases hs : squeeze c s with
        | nil => rfl
        | cons d r => rw [hs] at e; simp at e
  rw [List.append_assoc]
  by_cases h : p.getLast? = some c ∧ (a ++ s).head? = some c
  · rw [squeeze_join h.1 h.2, hz]
    cases z with
    | cons d z => exact ⟨z, by simp, by simp at hl ⊢; omega⟩
    | nil =>
      have := squeeze_head c (a ++ s)
      rw [h0 rfl, h.2] at this; cases this
  · rw [squeeze_append c p _ h, hz]
    exact ⟨z, by simp, hl⟩

theorem dotted_windowed : Windowed (· + 2) (dGo false false) := by
  classical
  intro n p s
  refine ⟨dGo false false p, dGo false false s, fun a ha => ?_⟩
  refine ⟨(if JoinedBySpace p a then [' '] else []) ++ dGo false false a ++
    (if JoinedBySpace (p ++ a) s then [' '] else []), ?_, ?_⟩
  · rw [spaces_append, spaces_append p a]; simp only [List.append_assoc]
  · have h1 := dGo_len a
    simp only [List.length_append]
    split <;> split <;> simp <;> omega

theorem first_visible {t : Str} {c : Char} (h : (t.filter (· ≠ ' ')).head? = some c) :
    ∃ k u, t = List.replicate k ' ' ++ c :: u := by
  induction t with
  | nil => cases h
  | cons d t ih =>
    by_cases hd : d = ' '
    · subst hd
      obtain ⟨k, u, rfl⟩ := ih (by simpa using h)
      exact ⟨k + 1, u, by simp [List.replicate_succ]⟩
    · simp [hd] at h
      subst h
      exact ⟨0, t, rfl⟩

theorem voiced_alnum {c : Char} (h : IsAlnum (some c)) (x : Char) : voiced c x = none := by
  cases hv : voiced c x with
  | none => rfl
  | some b =>
    have := (voiced_facts hv).1
    rw [(isAlnum_iff c).2 h] at this; cases this

/-- An alphanumeric that stands first stays first. -/
theorem spec_first_alnum {t : Str} {c : Char} (h : ((t.map neologdnFold).filter (· ≠ ' ')).head? = some c)
    (hc : IsAlnum (some c)) : (neologdnSpec t).head? = some c := by
  obtain ⟨k, r, e⟩ := first_visible h
  obtain ⟨l, m, rfl, hl, hm⟩ := List.map_eq_append_iff.1 e
  cases m with
  | nil => cases hm
  | cons d m =>
    rw [List.map_cons, List.cons.injEq] at hm
    have hblank : ∀ x ∈ l.map neologdnFold, x = ' ' := by rw [hl]; simp
    have one : neologdnSpec [d] = [c] := by
      have hcs : c ≠ ' ' := by rintro rfl; revert hc; decide
      have ht : c ∉ tildeChars := by
        intro ht
        have := (by decide +kernel : ∀ c ∈ tildeChars, isAsciiAlphanumeric c = false) c ht
        rw [(isAlnum_iff c).2 hc] at this; cases this
      have e1 : squeeze 'ー' [c] = [c] := by simp [squeeze]
      have e2 : spaceRule [c] = [c] := by rw [← dotted_eq, dotted_eq_dGo]; simp [dGo, hcs]
      rw [neologdnSpec, List.map_singleton, hm.1, e1, e2, List.filter_cons_of_pos (by simpa using ht)]
      rfl
    have h1 : neologdnSpec (l ++ [d]) = [c] := by
      rw [spec_pair (a := l) (b := [d]) ?_ ?_ false ?_, spec_blank hblank, one]
      · rfl
      · right
        rw [List.map_singleton, hm.1]
        rintro h; cases h; revert hc; decide +kernel
      · intro x y hx; rw [spec_blank hblank] at hx; cases hx
      · refine iff_of_false (by simp) (fun h => ?_)
        have := h.1
        rw [visible_nil.2 hblank] at this; exact this
    have h2 : neologdnSpec (l ++ [d]) <+: neologdnSpec (l ++ [d] ++ m) := (keeps_iff _ m).1.2 (by
      rintro z ⟨x, y, hx, -, hv⟩
      rw [h1] at hx
      cases (show c = x from Option.some.inj hx)
      rw [voiced_alnum hc] at hv; cases hv)
    rw [h1, List.append_assoc, List.singleton_append] at h2
    obtain ⟨r', hr'⟩ := h2
    rw [← hr']; rfl

/-- The character can be joined to a sound mark. -/
def Takes (o : Option Char) : Prop := ∃ x m b, o = some x ∧ voiced x m = some b

theorem spec_left (u : Str) : ∃ p, (p = neologdnSpec u ∧ ¬ Takes (neologdnSpec u).getLast? ∨
      p = (neologdnSpec u).dropLast ∧ Takes (neologdnSpec u).getLast?) ∧
    ∀ a, ∃ r, neologdnSpec (u ++ a) = p ++ r ∧ r.length ≤ a.length + 1 ∧ (r = [] → neologdnSpec (u ++ a) = neologdnSpec u ∧
      ¬ Takes (neologdnSpec u).getLast?) := by
  by_cases ht : Takes (neologdnSpec u).getLast?
  · refine ⟨_, .inr ⟨rfl, ht⟩, fun a => ?_⟩
    have hl := (neologdn_len a).1
    have hj := neologdn_joined u a
    obtain ⟨x, m, b, hx, hv⟩ := ht
    have e : neologdnSpec u = (neologdnSpec u).dropLast ++ [x] := by
      obtain ⟨w, hw⟩ := List.getLast?_eq_some_iff.1 hx
      rw [hw]; simp
    have hf := voiced_facts hv
    generalize neologdnSpec (u ++ a) = o at *
    cases hj with
    | compose z h =>
      obtain ⟨x', y, hx', hy, hv'⟩ := h
      refine ⟨_, rfl, ?_, fun h => by cases h⟩
      rw [List.length_cons, List.length_tail]; omega
    | choonpu h1 h2 =>
      obtain ⟨a', ha'⟩ := List.getLast?_eq_some_iff.1 h1
      have := neologdn_last (a := u) (c := 'ー') (by rw [ha']; simp) (by decide) (by decide) (by decide)
      rw [hx] at this; cases this
      exact absurd rfl hf.2.2.2.2.2.2.1
    | space h1 =>
      exfalso
      have h3 := h1.1
      cases hc : ((u.map neologdnFold).filter (· ≠ ' ')).getLast? with
      | none => rw [hc] at h3; exact h3
      | some c =>
        rw [hc] at h3
        have h2 := (isAlnum_iff c).2 h3
        have := neologdn_last hc (fun e => by rw [(by decide +kernel : ∀ c ∈ tildeChars, isAsciiAlphanumeric c = false) c e] at h2; cases h2)
          (fun e => by rw [e] at h2; revert h2; decide +kernel) (fun e => by rw [e] at h2; revert h2; decide +kernel)
        rw [hx] at this; cases this
        rw [hf.1] at h2; cases h2
    | plain h1 =>
      refine ⟨x :: neologdnSpec a, ?_, by simpa using hl, fun h => by cases h⟩
      rw [e, List.dropLast_concat, List.append_assoc]; rfl
  · refine ⟨_, .inl ⟨rfl, ht⟩, fun a => ?_⟩
    have hl := (neologdn_len a).1
    have hj := neologdn_joined u a
    have fin : ∀ r, neologdnSpec (u ++ a) = neologdnSpec u ++ r → r.length ≤ a.length + 1 → ∃ r,
        neologdnSpec (u ++ a) = neologdnSpec u ++ r ∧ r.length ≤ a.length + 1 ∧
          (r = [] → neologdnSpec (u ++ a) = neologdnSpec u ∧ ¬ Takes (neologdnSpec u).getLast?) := by
      intro r h1 h2
      exact ⟨r, h1, h2, fun e => ⟨by rw [h1, e, List.append_nil], ht⟩⟩
    generalize neologdnSpec (u ++ a) = o at *
    cases hj with
    | compose z h =>
      obtain ⟨x, y, hx, hy, hv⟩ := h
      exact absurd ⟨x, y, z, hx, hv⟩ ht
    | choonpu h1 h2 => exact fin _ rfl (by rw [List.length_tail]; omega)
    | space h1 => exact fin _ rfl (by rw [List.length_cons]; omega)
    | plain h1 => exact fin _ rfl (by omega)

theorem neologdn_windowed : Windowed (· + 2) neologdnSpec := by
  intro n u v
  obtain ⟨p, hp, hu⟩ := spec_left u
  by_cases hv : (v.map neologdnFold).head? = some 'ー' ∨ ∃ x y z, (neologdnSpec v).head? = some y ∧ voiced x y = some z
  · refine ⟨p, (neologdnSpec v).tail, fun a ha => ?_⟩
    obtain ⟨r, hr, hl, h0⟩ := hu a
    have hj := neologdn_joined (u ++ a) v
    generalize neologdnSpec (u ++ a ++ v) = o at *
    cases hj with
    | compose z h =>
      obtain ⟨x, y, hx, hy, hvv⟩ := h
      have hr0 : r ≠ [] := by
        intro e
        obtain ⟨h1, h2⟩ := h0 e
        rw [h1] at hx
        exact h2 ⟨x, y, z, hx, hvv⟩
      refine ⟨r.dropLast ++ [z], ?_, ?_⟩
      · rw [hr, List.dropLast_append_of_ne_nil hr0]; simp
      · have := List.length_pos_iff.2 hr0
        simp; omega
    | choonpu h1 h2 => exact ⟨r, by rw [hr], by show _ ≤ n + 2; omega⟩
    | space h1 =>
      exfalso
      have h2 := h1.2.1
      cases hc : ((v.map neologdnFold).filter (· ≠ ' ')).head? with
      | none => rw [hc] at h2; exact h2
      | some c =>
        rw [hc] at h2
        rcases hv with hv | ⟨x, y, z, hy, hv⟩
        · cases hvv : v.map neologdnFold with
          | nil => rw [hvv] at hv; cases hv
          | cons d w =>
            rw [hvv] at hv hc
            cases hv
            rw [List.filter_cons_of_pos (by decide)] at hc
            cases hc
            revert h2; decide +kernel
        · rw [spec_first_alnum hc h2] at hy
          cases hy
          have := (voiced_facts hv).2.1
          rw [(isAlnum_iff _).2 h2] at this; cases this
    | plain h1 =>
      refine ⟨r ++ (neologdnSpec v).take 1, ?_, ?_⟩
      · rw [hr, List.append_assoc, List.append_assoc, List.append_assoc, ← List.drop_one, List.take_append_drop]
      · rw [List.length_append, List.length_take]; show _ ≤ n + 2; omega
  · rw [not_or] at hv
    refine ⟨p, neologdnSpec v, fun a ha => ?_⟩
    obtain ⟨r, hr, hl, h0⟩ := hu a
    have hj := neologdn_joined (u ++ a) v
    generalize neologdnSpec (u ++ a ++ v) = o at *
    cases hj with
    | compose z h =>
      obtain ⟨x, y, hx, hy, hvv⟩ := h
      exact absurd ⟨x, y, z, hy, hvv⟩ hv.2
    | choonpu h1 h2 => exact absurd h2 hv.1
    | space h1 => exact ⟨r ++ [' '], by rw [hr]; simp, by simp; omega⟩
    | plain h1 => exact ⟨r, by rw [hr], by show _ ≤ n + 2; omega⟩

/-! ### Ligature rules -/

theorem flat_length (v t : Str) : (t.flatMap fun c => c :: v).length = t.length * (v.length + 1) := by
  induction t with
  | nil => simp
  | cons c t ih =>
    rw [List.flatMap_cons, List.length_append, ih, List.length_cons, List.length_cons, Nat.succ_mul]; omega

theorem strReplace_grow {k : Str} (hk : k ≠ []) (v t : Str) : (strReplace k v t).length ≤ t.length * (v.length + 1) := by
  have h := strReplace_replaced hk v t
  generalize strReplace k v t = o at h
  induction h with
  | nil => simp
  | hit h1 _ _ ih =>
    simp only [List.mem_singleton, Prod.mk.injEq] at h1
    have h2 := List.length_pos_iff.2 hk
    rw [h1.1, h1.2, List.length_append, List.length_append, Nat.add_mul]
    have : 1 * (v.length + 1) ≤ k.length * (v.length + 1) := Nat.mul_le_mul_right _ h2
    omega
  | keep _ _ ih => rw [List.length_cons, List.length_cons, Nat.succ_mul]; omega

theorem rule_windowed {k v : Str} (h : OverlapsAgree k v) {B : Nat} (hB : k.length + v.length ≤ B) :
    Windowed (fun n => (n + 2 * B) * (B + 1)) (strReplace k v) := by
  intro n p s
  by_cases hk : k = []
  · subst hk
    refine ⟨v ++ p.flatMap fun c => c :: v, s.flatMap fun c => c :: v, fun a ha => ⟨a.flatMap fun c => c :: v, ?_, ?_⟩⟩
    · simp only [strReplace, List.flatMap_append, List.append_assoc]
    · rw [flat_length]
      exact Nat.mul_le_mul (by omega) (by simp at hB; omega)
  have hk' : k.reverse ≠ [] := by simpa using hk
  obtain ⟨s1, q, r, e, hr, h1⟩ := strReplace_pending hk v p
  obtain ⟨s2, q', r', e', hr', h2⟩ := strReplace_pending hk' v.reverse s.reverse
  have back : ∀ w, strReplace k v (w ++ s) = strReplace k v (w ++ q'.reverse) ++ s2.reverse := by
    intro w
    have h3 := h2 w.reverse
    rw [← List.reverse_append, replace_reverse h, ← List.reverse_reverse q', ← List.reverse_append, replace_reverse h] at h3
    have := congrArg List.reverse h3
    rw [List.reverse_append] at this
    simpa using this
  refine ⟨s1, s2.reverse, fun a ha => ⟨strReplace k v (q ++ a ++ q'.reverse), ?_, ?_⟩⟩
  · rw [List.append_assoc, h1, ← List.append_assoc, back, List.append_assoc, List.append_assoc]
  · refine Nat.le_trans (strReplace_grow hk v _) (Nat.mul_le_mul ?_ (by omega))
    have l1 := congrArg List.length e
    have l2 := congrArg List.length e'
    simp only [List.length_append, List.length_reverse] at *
    omega

/-- The bound for a number of rules. -/
def rulesBound (B : Nat) : Nat → Nat → Nat
  | 0, n => n
  | i + 1, n => rulesBound B i ((n + 2 * B) * (B + 1))

theorem rules_near (B : Nat) (l : List (Str × Str)) (h : ∀ r ∈ l, OverlapsAgree r.1 r.2)
    (hB : ∀ r ∈ l, r.1.length + r.2.length ≤ B) (n : Nat) (x y : Str) (hn : Near n x y) :
    Near (rulesBound B l.length n) (l.foldl (fun t e => strReplace e.1 e.2 t) x) (l.foldl (fun t e => strReplace e.1 e.2 t) y) := by
  induction l generalizing n x y with
  | nil => exact hn
  | cons e l ih =>
    rw [List.foldl_cons, List.foldl_cons, List.length_cons, rulesBound]
    exact ih (fun r hr => h r (by simp [hr])) (fun r hr => hB r (by simp [hr])) _ _ _
      ((rule_windowed (h e (by simp)) (hB e (by simp))).near hn)

/-! ### Pipelines -/

theorem modify_near {m : ModifierKind} (hw : m.WF) (ht : m ≠ .trim) (hl : ∀ x, m ≠ .ligatureTranslator x)
    (σ : Oracle) (n : Nat) (x y ox oy : Str) (hn : Near n x y) (hx : m.modify σ x = .ok ox) (hy : m.modify σ y = .ok oy) :
    Near (n + 2) ox oy := by
  cases m with
  | trim => exact absurd rfl ht
  | ligatureTranslator x => exact absurd rfl (hl x)
  | characterConverter c =>
    rw [ModifierKind.modify, modify_eq, Outcome.ok.injEq] at hx hy
    subst hx hy
    obtain ⟨p, a, b, s, rfl, rfl, h1, h2⟩ := hn
    simp only [substitute, List.map_append]
    exact ⟨_, _, _, _, rfl, rfl, by simp; omega, by simp; omega⟩
  | characterEliminator c =>
    rw [ModifierKind.modify, eliminator_eq, Outcome.ok.injEq] at hx hy
    subst hx hy
    obtain ⟨p, a, b, s, rfl, rfl, h1, h2⟩ := hn
    simp only [List.filter_append]
    exact ⟨_, _, _, _, rfl, rfl, Nat.le_trans (List.length_filter_le _ _) (by omega),
      Nat.le_trans (List.length_filter_le _ _) (by omega)⟩
  | consecutiveCharacterReducer c =>
    rw [ModifierKind.modify, reducer_eq, Outcome.ok.injEq] at hx hy
    subst hx hy
    exact ((squeeze_windowed _).near hn).mono (by omega)
  | dottedSpaceEliminator =>
    rw [ModifierKind.modify, dotted_eq_dGo, Outcome.ok.injEq] at hx hy
    subst hx hy
    exact dotted_windowed.near hn
  | neologdn z =>
    obtain ⟨τ, hτ⟩ := hw
    obtain ⟨y', h1, -, h2, -⟩ := neologdn_new τ
    rw [h1] at hτ; cases hτ
    rw [ModifierKind.modify, h2, Outcome.ok.injEq] at hx hy
    subst hx hy
    exact neologdn_windowed.near hn

theorem pipeline_near (g : ModifierKind → Nat → Nat) (σs : Nat → Oracle) (ms : List ModifierKind) (hw : ∀ m ∈ ms, m.WF)
    (hg : ∀ m ∈ ms, ∀ σ n x y ox oy, Near n x y → m.modify σ x = .ok ox → m.modify σ y = .ok oy → Near (g m n) ox oy)
    (i n : Nat) (x y ox oy : Str) (hn : Near n x y)
    (hx : (ms.zipIdx i).foldlM (fun acc m => m.1.modify (σs m.2) acc) x = .ok ox)
    (hy : (ms.zipIdx i).foldlM (fun acc m => m.1.modify (σs m.2) acc) y = .ok oy) :
    Near (ms.foldl (fun n m => g m n) n) ox oy := by
  induction ms generalizing i n x y with
  | nil => cases hx; cases hy; exact hn
  | cons m ms ih =>
    rw [List.zipIdx_cons, List.foldlM_cons] at hx hy
    obtain ⟨o1, ps, h1, -⟩ := wf_agree m (hw m (by simp)) (σs i) x
    obtain ⟨o2, ps', h2, -⟩ := wf_agree m (hw m (by simp)) (σs i) y
    rw [h1, Outcome.ok_bind] at hx
    rw [h2, Outcome.ok_bind] at hy
    exact ih (fun m hm => hw m (by simp [hm])) (fun m hm => hg m (by simp [hm])) _ _ _ _
      (hg m (by simp) _ _ _ _ _ _ hn h1 h2) hx hy

/-! ### The property -/

/-- C93: one step changes the size of the place where two texts differ by at most: nothing for a converter and an
eliminator, one for a reducer, two for the dotted-space rule and neologdn. -/
theorem C93_step (σ : Oracle) (k v : YValue) (s : Step) (hd : Describes k v s) (d : Nat)
    (hs : (∃ l, s = .convert l) ∧ d = 0 ∨ (∃ l, s = .eliminate l) ∧ d = 0 ∨ (∃ c, s = .reduce c) ∧ d = 1 ∨
      (s = .spaces ∨ s = .neologdn) ∧ d = 2) :
    ∃ m, ModifierKind.fromYaml σ k v = .ok m ∧ ∀ τ n x y, Near n x y →
      ∃ ox oy, m.modify τ x = .ok ox ∧ m.modify τ y = .ok oy ∧ Near (n + d) ox oy := by
  obtain ⟨m, h1, h2⟩ := describes_ok hd σ
  refine ⟨m, h1, fun τ n x y hn => ?_⟩
  have hl : ∀ r, s ≠ .ligature r := by
    rintro r rfl
    rcases hs with ⟨⟨_, h⟩, -⟩ | ⟨⟨_, h⟩, -⟩ | ⟨⟨_, h⟩, -⟩ | ⟨h | h, -⟩ <;> cases h
  have hf := step_function hl h2.2
  refine ⟨_, _, hf τ x, hf τ y, ?_⟩
  rcases hs with ⟨⟨l, rfl⟩, rfl⟩ | ⟨⟨l, rfl⟩, rfl⟩ | ⟨⟨l, rfl⟩, rfl⟩ | ⟨rfl | rfl, rfl⟩
  · obtain ⟨p, a, b, s, rfl, rfl, h1, h2⟩ := hn
    simp only [Step.act, List.map_append]
    exact ⟨_, _, _, _, rfl, rfl, by simpa using h1, by simpa using h2⟩
  · obtain ⟨p, a, b, s, rfl, rfl, h1, h2⟩ := hn
    simp only [Step.act, List.filter_append]
    exact ⟨_, _, _, _, rfl, rfl, Nat.le_trans (List.length_filter_le _ _) h1,
      Nat.le_trans (List.length_filter_le _ _) h2⟩
  · exact (squeeze_windowed _).near hn
  · exact dotted_windowed.near hn
  · exact neologdn_windowed.near hn

theorem spec_dotted {t : Str} (h : ∀ c ∈ t, c ∈ c! "1 あ") : neologdnSpec t = dottedModify t := by
  have h1 : t.map neologdnFold = t := by
    have key : ∀ c ∈ c! "1 あ", neologdnFold c = c := by decide +kernel
    exact (List.map_congr_left fun c hc => key c (h c hc)).trans (List.map_id _)
  have h2 : ∀ c ∈ dottedModify t, c ∈ c! "1 あ" := by
    intro c hc
    rw [dotted_eq_dGo] at hc
    rcases dGo_mem hc with hc | rfl
    · exact h c hc
    · decide
  rw [neologdnSpec, h1, squeeze_not_mem (fun hm => absurd (h _ hm) (by decide)), ← dotted_eq,
    List.filter_eq_self.2 fun c hc => ?_]
  · refine compose_fix fun u a m v e => ?_
    have key : ∀ m ∈ c! "1 あ", m ≠ '゛' ∧ m ≠ '゜' := by decide
    have := key m (h2 m (by rw [e]; simp))
    simp [voiced, this]
  · have key : ∀ c ∈ c! "1 あ", c ∉ tildeChars := by decide
    simpa using key c (h2 c hc)

theorem near_replicate {n : Nat} (p s : Str) (a b : Char) :
    Near n (p ++ List.replicate n a ++ s) (p ++ List.replicate n b ++ s) :=
  ⟨p, _, _, s, rfl, rfl, by simp, by simp⟩

theorem dotted_ones (n : Nat) : dottedModify (c! "1 " ++ List.replicate (n + 1) '1' ++ c! " 1") =
    c! "1 " ++ List.replicate (n + 1) '1' ++ c! " 1" := by
  have key : ∀ n, dGo true false (List.replicate n '1' ++ c! " 1") = List.replicate n '1' ++ c! " 1" := by
    intro n
    induction n with
    | zero => decide
    | succ n ih =>
      rw [List.replicate_succ, List.cons_append, dGo, show isAsciiAlphanumeric '1' = true from rfl, ih]
      simp
  rw [dotted_eq_dGo, List.append_assoc, List.replicate_succ, List.cons_append]
  show dGo false false ('1' :: ' ' :: '1' :: _) = _
  simp [dGo, show isAsciiAlphanumeric '1' = true from rfl, key]

theorem dotted_kana (n : Nat) : dottedModify (c! "1 " ++ List.replicate (n + 1) 'あ' ++ c! " 1") =
    c! "1" ++ List.replicate (n + 1) 'あ' ++ c! "1" := by
  have key : ∀ n, dGo false false (List.replicate n 'あ' ++ c! " 1") = List.replicate n 'あ' ++ c! "1" := by
    intro n
    induction n with
    | zero => decide
    | succ n ih =>
      rw [List.replicate_succ, List.cons_append, dGo, show isAsciiAlphanumeric 'あ' = false from rfl, ih]
      simp
  rw [dotted_eq_dGo, List.append_assoc, List.replicate_succ, List.cons_append]
  show dGo false false ('1' :: ' ' :: 'あ' :: _) = _
  simp [dGo, show isAsciiAlphanumeric '1' = true from rfl, show isAsciiAlphanumeric 'あ' = false from rfl, key]

theorem far_ones (n : Nat) : ¬ Near (n + 2) (c! "1 " ++ List.replicate (n + 1) '1' ++ c! " 1")
    (c! "1" ++ List.replicate (n + 1) 'あ' ++ c! "1") := by
  rintro ⟨p, a, b, s, e1, e2, ha, hb⟩
  have h4 : 'あ' ∉ p ++ a ++ s := by rw [← e1]; simp [List.mem_replicate]
  simp only [List.mem_append, not_or] at h4
  have l1 := congrArg List.length e1
  have l2 := congrArg List.length e2
  have l3 := congrArg (List.count 'あ') e2
  have l4 := List.count_le_length (a := 'あ') (l := b)
  simp only [List.count_append, List.count_replicate_self, List.count_eq_zero_of_not_mem h4.1.1,
    List.count_eq_zero_of_not_mem h4.2, List.length_append, List.length_replicate, List.length_cons,
    List.length_nil] at l1 l2 l3
  rw [show List.count 'あ' ['1'] = 0 from rfl] at l3
  omega

/-- C93: for no size of the place will a smaller number do: texts that differ in `n + 1` characters, and their results. -/
theorem C93_sharp (σ : Oracle) (n : Nat) :
    (∃ x y, Near (n + 1) x y ∧ ∀ τ, ∃ ox oy, (CharacterConverter.fromMap (HMap.collect [('x', 'y')])).modify τ x = .ok ox ∧
      (CharacterConverter.fromMap (HMap.collect [('x', 'y')])).modify τ y = .ok oy ∧ ¬ Near n ox oy) ∧
    (∃ x y, Near (n + 1) x y ∧
      ¬ Near n ((CharacterEliminator.mk ['x']).modify x) ((CharacterEliminator.mk ['x']).modify y)) ∧
    (∃ x y, Near (n + 1) x y ∧
      ¬ Near (n + 1) ((ConsecutiveCharacterReducer.mk 'x').modify x) ((ConsecutiveCharacterReducer.mk 'x').modify y)) ∧
    (∃ x y, Near (n + 1) x y ∧ ¬ Near (n + 2) (dottedModify x) (dottedModify y)) ∧
    ∃ c, Chanoma.neologdn σ = .ok c ∧ ∃ x y, Near (n + 1) x y ∧ ∀ σs debug, ∃ o o',
      c.normalize σs debug x = .ok o ∧ c.normalize σs debug y = .ok o' ∧ ¬ Near (n + 2) o o' := by
  have h0 : Near (n + 1) (List.replicate (n + 1) 'y') [] := 
    ⟨[], List.replicate (n + 1) 'y', [], [], by simp, rfl, by simp, by simp⟩
  refine ⟨⟨_, _, h0, fun τ => ⟨_, _, modify_eq _ _ _, modify_eq _ _ _, fun h => ?_⟩⟩, ⟨_, _, h0, fun h => ?_⟩,
    ⟨_, _, near_replicate ['x'] ['x'] 'y' 'x', fun h => ?_⟩, ⟨_, _, near_replicate (c! "1 ") (c! " 1") '1' 'あ', ?_⟩, ?_⟩
  · have := h.length.1
    simp [substitute] at this
    omega
  · have := h.length.1
    rw [eliminator_eq, eliminator_eq] at this
    simp at this
    omega
  · rw [reducer_eq, reducer_eq] at h
    have e1 : squeeze 'x' (['x'] ++ List.replicate (n + 1) 'y' ++ ['x']) = ['x'] ++ List.replicate (n + 1) 'y' ++ ['x'] := by
      rw [squeeze_append, squeeze_append, squeeze_not_mem (t := List.replicate (n + 1) 'y')]
      · rfl
      · simp [List.mem_replicate]
      · simp [List.replicate_succ]
      · rw [List.replicate_succ', ← List.append_assoc, List.getLast?_append]; simp
    have e2 : squeeze 'x' (['x'] ++ List.replicate (n + 1) 'x' ++ ['x']) = ['x'] := by
      have : ['x'] ++ List.replicate (n + 1) 'x' ++ ['x'] = List.replicate (n + 2 + 1) 'x' :=
        List.eq_replicate_iff.2 ⟨by simp, fun b hb => by simpa [List.mem_replicate] using hb⟩
      rw [this, squeeze_replicate]
    rw [e1, e2] at h
    have := h.length.1
    simp at this
    omega
  · rw [dotted_ones, dotted_kana]; exact far_ones n
  · obtain ⟨c, h, hn⟩ := C16_neologdn σ
    refine ⟨c, h, _, _, near_replicate (c! "1 ") (c! " 1") '1' 'あ', fun σs debug => ⟨_, _, hn _ _ _, hn _ _ _, ?_⟩⟩
    rw [spec_dotted, spec_dotted, dotted_ones, dotted_kana]
    · exact far_ones n
    · intro c hc; simp [List.mem_replicate] at hc ⊢; rcases hc with h | h | h | h | h <;> simp [h]
    · intro c hc; simp [List.mem_replicate] at hc ⊢; rcases hc with h | h | h | h | h <;> simp [h]

/-- C93: in a pipeline without `trim` and ligature translators every modifier adds at most two. -/
theorem C93_pipeline {c : Chanoma} (hc : ApiBuilt c) (ht : .trim ∉ c.modifiers)
    (hl : ∀ x, .ligatureTranslator x ∉ c.modifiers) (σs : Nat → Oracle) (debug : Bool) (n : Nat) (text text' out out' : Str)
    (hn : Near n text text') (h1 : c.normalize σs debug text = .ok out) (h2 : c.normalize σs debug text' = .ok out') :
    Near (n + 2 * c.modifiers.length) out out' := by
  have hw := apiBuilt_wf hc
  have := pipeline_near (fun _ n => n + 2) σs c.modifiers hw (fun m hm σ n x y ox oy => modify_near (hw m hm)
    (fun e => ht (e ▸ hm)) (fun x e => hl x (e ▸ hm)) σ n x y ox oy) 0 n text text' out out' hn
    (normalize_quiet hw h1) (normalize_quiet hw h2)
  have e : ∀ (ms : List ModifierKind) n, ms.foldl (fun n _ => n + 2) n = n + 2 * ms.length := by
    intro ms
    induction ms with
    | nil => intro n; rfl
    | cons m ms ih => intro n; rw [List.foldl_cons, ih, List.length_cons]; omega
  rw [e] at this
  exact this

/-- C93: with ligature translators there is still a bound that depends on the pipeline only, if for every rule it does
not matter which one of two overlapping occurrences of its key is replaced. -/
theorem C93_ligatures {c : Chanoma} (hc : ApiBuilt c) (ht : .trim ∉ c.modifiers)
    (hl : ∀ x, .ligatureTranslator x ∈ c.modifiers → ∀ r ∈ x.map, OverlapsAgree r.1 r.2) :
    ∃ g : Nat → Nat, ∀ (σs : Nat → Oracle) (debug : Bool) (n : Nat) (text text' out out' : Str), Near n text text' →
      c.normalize σs debug text = .ok out → c.normalize σs debug text' = .ok out' → Near (g n) out out' := by
  have hw := apiBuilt_wf hc
  have hm : ∀ m ∈ c.modifiers, ∃ g : Nat → Nat, ∀ σ n x y ox oy, Near n x y → m.modify σ x = .ok ox →
      m.modify σ y = .ok oy → Near (g n) ox oy := by
    intro m hm
    by_cases hx : ∃ x, m = .ligatureTranslator x
    · obtain ⟨x, rfl⟩ := hx
      obtain ⟨B, hB⟩ := rules_bounded x.map
      refine ⟨rulesBound B x.map.length, fun σ n t t' o o' hn h1 h2 => ?_⟩
      rw [ModifierKind.modify, Outcome.ok.injEq] at h1 h2
      have hp := σ.iter_perm x.map
      have := rules_near B (σ.iter x.map) (fun r hr => hl x hm r (hp.mem_iff.1 hr)) (fun r hr => hB r (hp.mem_iff.1 hr)) n t t' hn
      rw [hp.length_eq] at this
      rw [← h1, ← h2]
      exact this
    · exact ⟨fun n => n + 2, fun σ n x y ox oy => modify_near (hw m hm) (fun e => ht (e ▸ hm)) (fun x e => hx ⟨x, e⟩) σ n x y ox oy⟩
  obtain ⟨g, hg⟩ : ∃ g : ModifierKind → Nat → Nat, ∀ m ∈ c.modifiers, ∀ σ n x y ox oy, Near n x y → m.modify σ x = .ok ox →
      m.modify σ y = .ok oy → Near (g m n) ox oy := by
    classical
    refine ⟨fun m => if h : m ∈ c.modifiers then (hm m h).choose else id, fun m h => ?_⟩
    simp only [dif_pos h]
    exact (hm m h).choose_spec
  exact ⟨fun n => c.modifiers.foldl (fun n m => g m n) n, fun σs debug n text text' out out' hn h1 h2 =>
    pipeline_near g σs c.modifiers hw hg 0 n text text' out out' hn (normalize_quiet hw h1) (normalize_quiet hw h2)⟩

/-- C93: with `trim` one character can make any difference. -/
theorem C93_trim (m : Nat) : ∃ x y, Near 1 x y ∧ ¬ Near m (trimModify x) (trimModify y) := by
  refine ⟨'a' :: List.replicate (m + 1) ' ', 'a' :: List.replicate (m + 1) ' ' ++ ['a'],
    ⟨'a' :: List.replicate (m + 1) ' ', [], ['a'], [], by simp, by simp, by simp, by simp⟩, fun h => ?_⟩
  have h1 : trimModify ('a' :: List.replicate (m + 1) ' ') = ['a'] := by
    obtain ⟨i, j, h, h1, h2⟩ := trim_eq ('a' :: List.replicate (m + 1) ' ')
    exact trim_unique (a := i) (b := j) (a' := 0) (b' := m + 1) (h.symm.trans (by simp)) h1 h2 (by simp) (by simp)
  have h2 : trimModify ('a' :: List.replicate (m + 1) ' ' ++ ['a']) = 'a' :: List.replicate (m + 1) ' ' ++ ['a'] := by
    obtain ⟨i, j, h, h1, h2⟩ := trim_eq ('a' :: List.replicate (m + 1) ' ' ++ ['a'])
    refine trim_unique (a := i) (b := j) (a' := 0) (b' := 0) (h.symm.trans (by simp)) h1 h2 (by simp) ?_
    rw [List.getLast?_append]; simp
  have := h.length.2
  rw [h1, h2] at this
  simp at this
  omega

/-- C93: so it can with a rule for which it does matter which of two overlapping occurrences is replaced. -/
theorem C93_overlap (m : Nat) : ∃ x y, Near 1 x y ∧ ∀ σ τ,
    ¬ Near m (LigatureTranslator.modify ⟨[(c! "aa", c! "b")]⟩ σ x) (LigatureTranslator.modify ⟨[(c! "aa", c! "b")]⟩ τ y) := by
  have hk : (c! "aa") ≠ [] := by decide
  have pairs : ∀ n s, strReplace (c! "aa") (c! "b") (List.replicate (2 * n) 'a' ++ s) =
      List.replicate n 'b' ++ strReplace (c! "aa") (c! "b") s := by
    intro n s
    induction n with
    | zero => rfl
    | succ n ih =>
      rw [Nat.mul_succ, List.replicate_succ, List.replicate_succ]
      have := strReplace_hit hk (c! "b") (List.replicate (2 * n) 'a' ++ s)
      rw [ih] at this
      exact this
  refine ⟨'c' :: (List.replicate (2 * (m + 1)) 'a' ++ c! "d"), 'a' :: (List.replicate (2 * (m + 1)) 'a' ++ c! "d"),
    ⟨[], ['c'], ['a'], _, rfl, rfl, by simp, by simp⟩, fun σ τ => ?_⟩
  rw [one_rule, one_rule]
  have e1 : strReplace (c! "aa") (c! "b") ('c' :: (List.replicate (2 * (m + 1)) 'a' ++ c! "d")) =
      'c' :: (List.replicate (m + 1) 'b' ++ c! "d") := by
    rw [strReplace_keep hk _ (by simp [List.cons_prefix_cons]), pairs, strReplace_short hk _ _ (by decide)]
  have e2 : strReplace (c! "aa") (c! "b") ('a' :: (List.replicate (2 * (m + 1)) 'a' ++ c! "d")) =
      List.replicate (m + 1) 'b' ++ c! "ad" := by
    have : 'a' :: (List.replicate (2 * (m + 1)) 'a' ++ c! "d") = List.replicate (2 * (m + 1)) 'a' ++ c! "ad" := by
      rw [← List.cons_append, ← List.replicate_succ, List.replicate_succ', List.append_assoc]; rfl
    rw [this, pairs, show strReplace (c! "aa") (c! "b") (c! "ad") = c! "ad" by decide]
  rw [e1, e2]
  rintro ⟨p, a, b, s, h1, h2, ha, hb⟩
  have hp : p = [] := by
    cases p with
    | nil => rfl
    | cons x p =>
      rw [List.replicate_succ] at h2
      simp only [List.cons_append, List.cons.injEq] at h1 h2
      exact absurd (h1.1.trans h2.1.symm) (by decide)
  subst hp
  have l1 := congrArg List.length h1
  simp only [List.length_cons, List.length_append, List.length_replicate, List.length_nil, List.nil_append] at l1
  have g1 := congrArg List.reverse h1
  have g2 := congrArg List.reverse h2
  rw [List.replicate_succ'] at g1
  simp at g1 g2
  have hs : ∃ z w q, s.reverse = z :: w :: q := by
    match hq : s.reverse with
    | [] => have := congrArg List.length hq; simp at this; rw [this] at l1; simp at l1; omega
    | [z] => have := congrArg List.length hq; rw [List.length_reverse, List.length_singleton] at this; omega
    | z :: w :: q => exact ⟨z, w, q, rfl⟩
  obtain ⟨z, w, q, hq⟩ := hs
  rw [hq] at g1 g2
  simp at g1 g2
  exact absurd (g1.2.1.trans g2.2.1.symm) (by decide)

/-! ### Examples -/

/-- A pipeline of a reducer and a dotted-space rule, and two texts with a character exchanged. -/
example : ∃ c, ApiBuilt c ∧ .trim ∉ c.modifiers ∧ (∀ x, .ligatureTranslator x ∉ c.modifiers) ∧
    c.modifiers.length = 3 ∧ ∀ σs, c.normalize σs false (c! "あa  b") = .ok (c! "あa b") ∧
      c.normalize σs false (c! "ああ  b") = .ok (c! "あb") := by
  refine ⟨⟨[.consecutiveCharacterReducer ⟨'あ'⟩, .dottedSpaceEliminator, .characterConverter ⟨[]⟩]⟩, ?_, by simp, by simp, rfl,
    fun σs => ⟨?_, ?_⟩⟩
  · exact .fromConfigFile (σ := .insertion) (path := p! "/c.yaml")
      (w := .ofFiles [(p! "/c.yaml", .text [])] (fun _ => some (.mapping [(.string (c! "modifiers"),
        .mapping [(.string (c! "consecutive_character_reducer"), .string (c! "あ")),
          (.string (c! "dotted_space_eliminator"), .null)])]))) rfl
  · rw [show ∀ c : Chanoma, ∀ t, c.normalize σs false t = c.modifiers.zipIdx.foldlM (fun acc m => m.1.modify (σs m.2) acc) t
      from fun _ _ => rfl]
    simp only [List.zipIdx_cons, List.zipIdx_nil, List.foldlM_cons, List.foldlM_nil, ModifierKind.modify, reducer_eq, Outcome.ok_bind]
    rw [modify_eq]; decide +kernel
  · rw [show ∀ c : Chanoma, ∀ t, c.normalize σs false t = c.modifiers.zipIdx.foldlM (fun acc m => m.1.modify (σs m.2) acc) t
      from fun _ _ => rfl]
    simp only [List.zipIdx_cons, List.zipIdx_nil, List.foldlM_cons, List.foldlM_nil, ModifierKind.modify, reducer_eq, Outcome.ok_bind]
    rw [modify_eq]; decide +kernel

/-- A pipeline with a ligature translator whose key does not overlap itself. -/
example : ∃ c, ApiBuilt c ∧ .trim ∉ c.modifiers ∧ (∃ x, .ligatureTranslator x ∈ c.modifiers) ∧
    ∀ x, .ligatureTranslator x ∈ c.modifiers → ∀ r ∈ x.map, OverlapsAgree r.1 r.2 := by
  refine ⟨⟨[.ligatureTranslator ⟨[(c! "b", c! "cc")]⟩, .characterConverter ⟨[]⟩]⟩, ?_, by simp, ⟨_, List.mem_cons_self⟩, ?_⟩
  · exact .fromConfigFile (σ := .insertion) (path := p! "/c.yaml")
      (w := .ofFiles [(p! "/c.yaml", .text [])] (fun _ => some (.mapping [(.string (c! "modifiers"),
        .mapping [(.string (c! "ligature_translator"), .mapping [(.string (c! "b"), .string (c! "cc"))])])]))) rfl
  · intro x hx r hr
    simp only [List.mem_cons, ModifierKind.ligatureTranslator.injEq, reduceCtorEq, List.not_mem_nil, or_false] at hx
    subst hx
    rw [List.mem_singleton.1 hr]
    refine C89_no_overlap _ (fun s h1 h2 h3 => ?_) _
    rcases List.prefix_cons_iff.1 h3 with h | ⟨t, h4, h5⟩
    · exact absurd h h1
    · rw [List.prefix_nil.1 h5] at h4
      exact absurd h4 h2

end Chanoma
