import Verif.Model.Modifier
import Verif.Spec.Ligature
/-! # Lemmas about `str::replace` and the ligature translator -/

namespace Chanoma

theorem canStartIn_iff (k' k : Str) : CanStartIn k' k ↔
    ∃ i, i < k.length ∧ (k.drop i <+: k' ∨ k' <+: k.drop i) := by
  constructor
  · rintro ⟨s, hs, ⟨u, rfl⟩, h⟩
    have := List.length_pos_iff.mpr hs
    exact ⟨u.length, by simp; omega, by simpa using h⟩
  · rintro ⟨i, hi, h⟩
    exact ⟨k.drop i, by simp; omega, List.drop_suffix i k, h⟩

instance (k' k : Str) : Decidable (CanStartIn k' k) :=
  decidable_of_iff (∃ i, i < k.length ∧ (k.drop i <+: k' ∨ k' <+: k.drop i)) (canStartIn_iff k' k).symm

instance (rules : List (Str × Str)) : Decidable (NonInterfering rules) :=
  inferInstanceAs (Decidable (_ ∧ _))

theorem replaceGo_skip (k v x o : Str) : replaceGo k v x.length (x ++ o) = replaceGo k v 0 o := by
  induction x with
  | nil => rfl
  | cons a x ih => simp [replaceGo, ih]

theorem strReplace_hit {k : Str} (hk : k ≠ []) (v o : Str) :
    strReplace k v (k ++ o) = v ++ strReplace k v o := by
  cases k with
  | nil => exact absurd rfl hk
  | cons a k =>
    have hp : (a :: k).isPrefixOf (a :: (k ++ o)) = true := by
      rw [List.isPrefixOf_iff_prefix]; exact List.prefix_append (a :: k) o
    simp only [strReplace, List.cons_append, replaceGo, hp, if_true, List.length_cons,
      Nat.add_sub_cancel]
    rw [replaceGo_skip]

theorem strReplace_keep {k : Str} (hk : k ≠ []) (v : Str) {c : Char} {o : Str}
    (h : ¬ k <+: c :: o) : strReplace k v (c :: o) = c :: strReplace k v o := by
  cases k with
  | nil => exact absurd rfl hk
  | cons a k =>
    have hp : (a :: k).isPrefixOf (c :: o) = false := by
      rw [Bool.eq_false_iff]; intro h2; exact h (List.isPrefixOf_iff_prefix.mp h2)
    simp [strReplace, replaceGo, hp]

theorem strReplace_nil {k : Str} (hk : k ≠ []) (v : Str) : strReplace k v [] = [] := by
  cases k with
  | nil => exact absurd rfl hk
  | cons a k => rfl

/-- A single rule: `str::replace` is the left-to-right replacement. -/
theorem strReplace_replaced {k : Str} (hk : k ≠ []) (v t : Str) :
    Replaced [(k, v)] t (strReplace k v t) := by
  suffices ∀ n, ∀ t : Str, t.length ≤ n → Replaced [(k, v)] t (strReplace k v t) from
    this t.length t (Nat.le_refl _)
  intro n
  induction n with
  | zero =>
    intro t ht
    cases t with
    | nil => rw [strReplace_nil hk]; exact .nil
    | cons _ _ => simp at ht
  | succ n ih =>
    intro t ht
    cases t with
    | nil => rw [strReplace_nil hk]; exact .nil
    | cons c t =>
      by_cases hp : k <+: c :: t
      · obtain ⟨o, ho⟩ := hp
        rw [← ho, strReplace_hit hk]
        refine .hit (by simp) hk (ih o ?_)
        have := congrArg List.length ho
        have hk' := List.length_pos_iff.mpr hk
        simp at this ht
        omega
      · rw [strReplace_keep hk v hp]
        refine .keep ?_ (ih t (by simpa using ht))
        intro r hr
        simp at hr
        subst hr
        exact hp

theorem Replaced.congr {R R' : List (Str × Str)} (h : ∀ r, r ∈ R ↔ r ∈ R') {t o : Str}
    (ht : Replaced R t o) : Replaced R' t o := by
  induction ht with
  | nil => exact .nil
  | hit hm hk _ ih => exact .hit ((h _).mp hm) hk ih
  | keep hn _ ih => exact .keep (fun r hr => hn r ((h r).mpr hr)) ih

theorem prefix_append_cases {k s t : Str} (h : k <+: s ++ t) : k <+: s ∨ s <+: k := by
  rcases Nat.le_total k.length s.length with hl | hl
  · left; exact List.prefix_of_prefix_length_le h (List.prefix_append s t) hl
  · right; exact List.prefix_of_prefix_length_le (List.prefix_append s t) h hl

/-- If no key can start in `k`, an occurrence of `k` survives the replacement. -/
theorem Replaced.survive {R : List (Str × Str)} {k : Str}
    (h : ∀ r ∈ R, ¬ CanStartIn r.1 k) (s t x : Str) (hs : s <:+ k) (hx : Replaced R (s ++ t) x) :
    ∃ o, x = s ++ o ∧ Replaced R t o := by
  induction s generalizing x with
  | nil => exact ⟨x, rfl, hx⟩
  | cons c s ih =>
    have hno : ∀ r ∈ R, ¬ r.1 <+: (c :: s) ++ t := by
      intro r hr hp
      refine h r hr ⟨c :: s, by simp, hs, ?_⟩
      rcases prefix_append_cases hp with hp | hp
      · exact .inr hp
      · exact .inl hp
    have hs' : s <:+ k := (List.suffix_cons c s).trans hs
    generalize ht0 : (c :: s) ++ t = t0 at hx hno
    cases hx with
    | nil => simp at ht0
    | hit hm hk _ => exact absurd (List.prefix_append _ _) (hno _ hm)
    | keep hn hrest =>
      simp only [List.cons_append, List.cons.injEq] at ht0
      obtain ⟨rfl, rfl⟩ := ht0
      obtain ⟨o, rfl, ho⟩ := ih _ hs' hrest
      exact ⟨o, rfl, ho⟩

/-- If the key cannot start in `v`, replacing passes over `v`. -/
theorem strReplace_over {k : Str} (hk : k ≠ []) (w v : Str) (h : ¬ CanStartIn k v) (s o : Str)
    (hs : s <:+ v) : strReplace k w (s ++ o) = s ++ strReplace k w o := by
  induction s with
  | nil => rfl
  | cons c s ih =>
    have hno : ¬ k <+: c :: (s ++ o) := by
      intro hp
      refine h ⟨c :: s, by simp, hs, ?_⟩
      rcases prefix_append_cases (s := c :: s) hp with hp | hp
      · exact .inr hp
      · exact .inl hp
    rw [List.cons_append, strReplace_keep hk w hno, ih ((List.suffix_cons c s).trans hs)]
    rfl

/-- A proper end of `k` found after the replacement was already there. -/
theorem Replaced.prefix_back {R : List (Str × Str)} {k : Str}
    (h : ∀ r ∈ R, if r.2 = [] then k.length = 1 else ¬ CanStartIn r.2 k)
    {t o : Str} (ht : Replaced R t o) :
    ∀ p : Str, p <:+ k → p.length < k.length → p <+: o → p <+: t := by
  induction ht with
  | nil => intro p _ _ h; exact h
  | @hit k' v t o hm hk _ ih =>
    intro p hp hl hpo
    by_cases hpn : p = []
    · subst hpn; exact List.nil_prefix
    · have hv := h _ hm
      have := List.length_pos_iff.mpr hpn
      split at hv
      · omega
      · refine absurd ⟨p, hpn, hp, ?_⟩ hv
        rcases prefix_append_cases hpo with h1 | h1
        · exact .inl h1
        · exact .inr h1
  | @keep c t o hn _ ih =>
    intro p hp hl hpo
    cases p with
    | nil => exact List.nil_prefix
    | cons a p =>
      rw [List.cons_prefix_cons] at hpo ⊢
      exact ⟨hpo.1, ih p ((List.suffix_cons a p).trans hp) (by simp at hl; omega) hpo.2⟩

/-- Applying one more rule after the others is applying all of them at once. -/
theorem Replaced.step {R : List (Str × Str)} {k v : Str} (hk : k ≠ [])
    (h1 : ∀ r ∈ R, ¬ CanStartIn r.1 k)
    (h2 : ∀ r ∈ R, ¬ CanStartIn k r.2)
    (h3 : ∀ r ∈ R, if r.2 = [] then k.length = 1 else ¬ CanStartIn r.2 k) :
    ∀ n, ∀ t o : Str, t.length ≤ n → Replaced R t o → Replaced ((k, v) :: R) t (strReplace k v o) := by
  intro n
  induction n with
  | zero =>
    intro t o ht h
    cases h with
    | nil => rw [strReplace_nil hk]; exact .nil
    | @hit k' _ t' _ _ hk' _ =>
      have := List.length_pos_iff.mpr hk'
      simp at ht; exact absurd ht.1 hk'
    | keep _ _ => simp at ht
  | succ n ih =>
    intro t o ht h
    by_cases hp : k <+: t
    · obtain ⟨t2, rfl⟩ := hp
      obtain ⟨o2, rfl, ho2⟩ := Replaced.survive h1 k t2 o (List.suffix_refl k) h
      rw [strReplace_hit hk]
      refine .hit (by simp) hk (ih t2 o2 ?_ ho2)
      have := List.length_pos_iff.mpr hk
      simp at ht; omega
    · cases h with
      | nil => rw [strReplace_nil hk]; exact .nil
      | @hit k' v' t' o' hm hk' hrest =>
        rw [strReplace_over hk _ _ (h2 _ hm) _ _ (List.suffix_refl _)]
        refine .hit (by simp [hm]) hk' (ih t' o' ?_ hrest)
        have := List.length_pos_iff.mpr hk'
        simp at ht; omega
      | @keep c t' o' hn hrest =>
        have hk2 : ¬ k <+: c :: o' := by
          intro hp2
          apply hp
          cases k with
          | nil => exact List.nil_prefix
          | cons a k =>
            rw [List.cons_prefix_cons] at hp2 ⊢
            exact ⟨hp2.1, hrest.prefix_back h3 k (List.suffix_cons a k) (by simp) hp2.2⟩
        rw [strReplace_keep hk v hk2]
        refine .keep ?_ (ih t' o' (by simpa using ht) hrest)
        intro r hr
        rcases List.mem_cons.mp hr with rfl | hr
        · exact hp
        · exact hn r hr

/-- Non-interfering rules applied one after the other, in any order. -/
theorem foldl_replaced (todo done : List (Str × Str)) (t o : Str)
    (hni : NonInterfering (todo ++ done))
    (hnd : ((todo ++ done).map Prod.fst).Nodup) (ho : Replaced done t o) :
    Replaced (todo ++ done) t (todo.foldl (fun text e => strReplace e.1 e.2 text) o) := by
  induction todo generalizing done o with
  | nil => exact ho
  | cons e todo ih =>
    rw [List.foldl_cons]
    have hperm : ∀ r, r ∈ todo ++ e :: done ↔ r ∈ e :: todo ++ done := by
      intro r; simp only [List.mem_append, List.mem_cons, List.cons_append]
      constructor
      · rintro (h | h | h) <;> simp [h]
      · rintro (h | h | h) <;> simp [h]
    have hni' : NonInterfering (todo ++ e :: done) :=
      ⟨fun r hr => hni.1 r ((hperm r).mp hr), fun r hr r' hr' => hni.2 r ((hperm r).mp hr) r' ((hperm r').mp hr')⟩
    have hp : (todo ++ e :: done).Perm (e :: todo ++ done) := List.perm_middle
    have hnd' : ((todo ++ e :: done).map Prod.fst).Nodup := (hp.map Prod.fst).nodup_iff.mpr hnd
    refine Replaced.congr hperm (ih (e :: done) _ hni' hnd' ?_)
    have hne : ∀ r ∈ done, r.1 ≠ e.1 := by
      intro r hr heq
      rw [List.cons_append, List.map_cons, List.nodup_cons] at hnd
      exact hnd.1 (by rw [← heq]; exact List.mem_map.mpr ⟨r, by simp [hr], rfl⟩)
    exact Replaced.step (hni.1 e (by simp))
      (fun r hr => (hni.2 e (by simp) r (by simp [hr]) (fun he => hne r hr he.symm)).1)
      (fun r hr => (hni.2 r (by simp [hr]) e (by simp) (hne r hr)).2.1)
      (fun r hr => (hni.2 r (by simp [hr]) e (by simp) (hne r hr)).2.2) t.length t o (Nat.le_refl _) ho

theorem Replaced.refl_nil (t : Str) : Replaced [] t t := by
  induction t with
  | nil => exact .nil
  | cons c t ih => exact .keep (by simp) ih

theorem ligature_replaced (x : LigatureTranslator) (σ : Oracle) (t : Str)
    (hni : NonInterfering x.map) (hnd : (x.map.map Prod.fst).Nodup) :
    Replaced x.map t (x.modify σ t) := by
  have hp := σ.iter_perm x.map
  have := foldl_replaced (σ.iter x.map) [] t t
    ⟨fun r hr => hni.1 r (hp.mem_iff.mp (by simpa using hr)),
     fun r hr r' hr' => hni.2 r (hp.mem_iff.mp (by simpa using hr)) r' (hp.mem_iff.mp (by simpa using hr'))⟩
    (by rw [List.append_nil]; exact (hp.map Prod.fst).nodup_iff.mpr hnd) (Replaced.refl_nil t)
  exact Replaced.congr (fun r => by simpa using hp.mem_iff) this

theorem nodup_map_inj {R : List (Str × Str)} (hnd : (R.map Prod.fst).Nodup) {r r' : Str × Str}
    (hr : r ∈ R) (hr' : r' ∈ R) (he : r.1 = r'.1) : r = r' := by
  induction R with
  | nil => simp at hr
  | cons e R ih =>
    rw [List.map_cons, List.nodup_cons] at hnd
    rcases List.mem_cons.mp hr with h | h <;> rcases List.mem_cons.mp hr' with h' | h'
    · rw [h, h']
    · exact absurd (List.mem_map.mpr ⟨r', h', by rw [← he, h]⟩) hnd.1
    · exact absurd (List.mem_map.mpr ⟨r, h, by rw [he, h']⟩) hnd.1
    · exact ih hnd.2 h h'

theorem Replaced.unique {R : List (Str × Str)} (hni : NonInterfering R)
    (hnd : (R.map Prod.fst).Nodup) {t o o' : Str} (h : Replaced R t o) (h' : Replaced R t o') :
    o = o' := by
  have key : ∀ r ∈ R, ∀ r' ∈ R, r.1 <+: r'.1 → r = r' := by
    intro r hr r' hr' hp
    by_cases he : r.1 = r'.1
    · exact nodup_map_inj hnd hr hr' he
    · exact absurd ⟨r'.1, hni.1 r' hr', List.suffix_refl _, .inr hp⟩
        (hni.2 r' hr' r hr (fun e => he e.symm)).1
  induction h generalizing o' with
  | nil =>
    generalize ht : ([] : Str) = t at h'
    cases h' with
    | nil => rfl
    | hit _ hk _ => simp at ht; exact absurd ht.1 hk
    | keep _ _ => simp at ht
  | @hit k v t o hm hk _ ih =>
    generalize ht : k ++ t = t0 at h'
    cases h' with
    | nil => simp at ht; exact absurd ht.1 hk
    | @hit k' v' t' o2 hm' hk' hrest =>
      have h1 : k' <+: k ++ t := by rw [ht]; exact List.prefix_append _ _
      have e : (k, v) = (k', v') := by
        rcases prefix_append_cases h1 with h2 | h2
        · exact (key _ hm' _ hm h2).symm
        · exact key _ hm _ hm' h2
      cases e
      rw [List.append_cancel_left_eq] at ht
      subst ht
      rw [ih hrest]
    | keep hn _ => exact absurd (by rw [← ht]; exact List.prefix_append _ _) (hn _ hm)
  | @keep c t o hn _ ih =>
    generalize ht : c :: t = t0 at h'
    cases h' with
    | nil => simp at ht
    | hit hm _ _ => exact absurd (by rw [ht]; exact List.prefix_append _ _) (hn _ hm)
    | keep _ hrest =>
      simp at ht
      obtain ⟨rfl, rfl⟩ := ht
      rw [ih hrest]

end Chanoma
