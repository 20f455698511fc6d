import Verif.Props.Ligature
/-! # C15: an exact criterion for keys that do not overlap -/

namespace Chanoma

theorem strReplace_self {k : Str} (hk : k ≠ []) (t : Str) : strReplace k k t = t := by
  have h := strReplace_replaced hk k t
  generalize strReplace k k t = o at h
  induction h with
  | nil => rfl
  | hit h1 _ _ ih =>
    simp only [List.mem_singleton, Prod.mk.injEq] at h1
    rw [ih, h1.1, h1.2]
  | keep _ _ ih => rw [ih]

theorem infix_cons_iff' {k t : Str} {c : Char} (h : k <:+: c :: t) : k <+: c :: t ∨ k <:+: t :=
  List.infix_cons_iff.1 h

theorem strReplace_length {k : Str} (hk : k ≠ []) (v t : Str) :
    ∃ n, (strReplace k v t).length + n * k.length = t.length + n * v.length ∧ (k <:+: t → 0 < n) := by
  have h := strReplace_replaced hk v t
  generalize strReplace k v t = o at h
  induction h with
  | nil =>
    refine ⟨0, by simp, fun h => absurd (List.eq_nil_of_infix_nil h) hk⟩
  | hit h1 _ _ ih =>
    simp only [List.mem_singleton, Prod.mk.injEq] at h1
    obtain ⟨n, h2, -⟩ := ih
    refine ⟨n + 1, ?_, fun _ => by omega⟩
    rw [h1.1, h1.2]
    simp only [List.length_append, Nat.add_mul, Nat.one_mul]
    omega
  | keep h1 _ ih =>
    obtain ⟨n, h2, h3⟩ := ih
    refine ⟨n, by simp only [List.length_cons]; omega, fun h => ?_⟩
    rcases infix_cons_iff' h with h | h
    · exact absurd h (h1 (k, v) (by simp))
    · exact h3 h

theorem strReplace_absent {k : Str} (hk : k ≠ []) (v : Str) {t : Str} (h : ¬ k <:+: t) :
    strReplace k v t = t := by
  induction t with
  | nil => exact strReplace_nil hk v
  | cons c t ih =>
    rw [strReplace_keep hk v (fun hp => h hp.isInfix), ih fun hi => h (hi.trans (List.suffix_cons c t).isInfix)]

/-- An only occurrence is replaced. -/
theorem strReplace_only {k : Str} (hk : k ≠ []) (v w q : Str)
    (h : ∀ a b, w ++ k ++ q = a ++ k ++ b → a = w) : strReplace k v (w ++ k ++ q) = w ++ v ++ q := by
  have h1 := (C14_single_ligature Oracle.insertion k v (w ++ k ++ q) hk).2 w q rfl fun a b e => by rw [h a b e]; exact Nat.le_refl _
  have hrun : ∀ s, (LigatureTranslator.mk [(k, v)]).modify Oracle.insertion s = strReplace k v s := by
    intro s
    have := Oracle.insertion.iter_perm [(k, v)]
    rw [List.perm_singleton] at this
    simp [LigatureTranslator.modify, this]
  simp only [hrun] at h1
  rw [h1, strReplace_absent hk]
  rintro ⟨a, b, e⟩
  have := h (w ++ k ++ a) b (by rw [← e]; simp)
  have := congrArg List.length this
  have hp := List.length_pos_iff.2 hk
  simp only [List.length_append] at this
  omega

theorem strReplace_eq_self {k v t : Str} (hk : k ≠ []) (hi : k <:+: t) (h : strReplace k v t = t) : v = k := by
  obtain ⟨n, h1, h2⟩ := strReplace_length hk v t
  have h3 := h2 hi
  rw [h] at h1
  have h4 : k.length = v.length := Nat.eq_of_mul_eq_mul_left h3 (by omega)
  clear h1 h2 h3
  induction t with
  | nil => exact absurd (List.eq_nil_of_infix_nil hi) hk
  | cons c t ih =>
    by_cases hp : k <+: c :: t
    · obtain ⟨o, ho⟩ := hp
      rw [← ho, strReplace_hit hk] at h
      exact (List.append_inj h h4.symm).1
    · rw [strReplace_keep hk v hp] at h
      exact ih ((infix_cons_iff' hi).resolve_left hp) (List.cons.inj h).2

theorem prefix_total {a b c d : Str} (h : a ++ c = b ++ d) : a <+: b ∨ b <+: a :=
  List.prefix_or_prefix_of_prefix ⟨c, h⟩ ⟨d, rfl⟩

theorem separateKeys_iff (rules : List (Str × Str)) : SeparateKeys rules ↔
    ∀ r ∈ rules, ∀ r' ∈ rules, ∀ i, i < r.1.length → (r.1.drop i <+: r'.1 ∨ r'.1 <+: r.1.drop i) →
      r = r' ∧ r.1.drop i = r.1 := by
  constructor
  · intro h r hr r' hr' i hi
    exact h r hr r' hr' _ (by simpa using hi) (List.drop_suffix _ _)
  · rintro h r hr r' hr' s hs ⟨p, hp⟩ h1
    have hd : r.1.drop p.length = s := by rw [← hp]; simp
    have := List.length_pos_iff.2 hs
    have h2 := h r hr r' hr' p.length (by rw [← hp]; simp; omega)
    rw [hd] at h2
    exact h2 h1

instance (rules : List (Str × Str)) : Decidable (SeparateKeys rules) :=
  decidable_of_iff _ (separateKeys_iff rules).symm

instance (v k : Str) : Decidable (CanFeed v k) := inferInstanceAs (Decidable (_ ∨ _))

/-- In `w k q`, where `w` and `q` are proper pieces of a key, no key occurs but `k`. -/
theorem only_occurrence {rules : List (Str × Str)} (hk : ∀ r ∈ rules, r.1 ≠ []) (hsep : SeparateKeys rules)
    {r r' e : Str × Str} (hr : r ∈ rules) (hr' : r' ∈ rules) (he : e ∈ rules) {w q z y a b : Str}
    (hw : r'.1 = w ++ z) (hz : z ≠ []) (hq : r'.1 = y ++ q) (hy : y ≠ [])
    (h : w ++ r.1 ++ q = a ++ e.1 ++ b) : e = r ∧ a = w := by
  have hek := hk e he
  by_cases h1 : a.length < w.length
  · -- it starts in `w`
    exfalso
    have hpre : a <+: w := by
      rcases prefix_total (a := a) (b := w) (c := e.1 ++ b) (d := r.1 ++ q) (by simpa using h.symm) with h2 | h2
      · exact h2
      · exact absurd h2.length_le (by omega)
    obtain ⟨u, rfl⟩ := hpre
    have hu : u ≠ [] := by rintro rfl; simp at h1
    have h2 : u ++ (r.1 ++ q) = e.1 ++ b := by simpa using h
    by_cases h3 : e.1.length ≤ u.length
    · have h4 : e.1 <+: u := by
        rcases prefix_total h2 with h4 | h4
        · rw [h4.eq_of_length (by have := h4.length_le; omega)]
          exact List.prefix_refl _
        · exact h4
      obtain ⟨h5, h6⟩ := hsep r' hr' e he (u ++ z) (by simp [hu]) ⟨a, by rw [hw]; simp⟩
        (.inr (h4.trans (List.prefix_append _ _)))
      rw [← h5, ← h6] at h3
      have := List.length_pos_iff.2 hz
      simp at h3
      omega
    · have h4 : u <+: e.1 := by
        rcases prefix_total h2 with h4 | h4
        · exact h4
        · exact absurd h4.length_le h3
      obtain ⟨u', hu'⟩ := h4
      have hne : u' ≠ [] := by rintro rfl; rw [List.append_nil] at hu'; rw [← hu'] at h3; exact h3 (Nat.le_refl _)
      rw [← hu'] at h2
      have h5 : r.1 ++ q = u' ++ b := by simpa using h2
      obtain ⟨-, h6⟩ := hsep e he r hr u' hne ⟨u, hu'⟩ (prefix_total h5).symm
      rw [← hu'] at h6
      have h7 := congrArg List.length h6
      have := List.length_pos_iff.2 hu
      rw [List.length_append] at h7
      omega
  · have hpre : w <+: a := by
      rcases prefix_total (a := w) (b := a) (c := r.1 ++ q) (d := e.1 ++ b) (by simpa using h) with h2 | h2
      · exact h2
      · rw [h2.eq_of_length (by have := h2.length_le; omega)]
        exact List.prefix_refl _
    obtain ⟨a', rfl⟩ := hpre
    have h2 : r.1 ++ q = a' ++ (e.1 ++ b) := by simpa using h
    by_cases h3 : a'.length < r.1.length
    · have h4 : a' <+: r.1 := by
        rcases prefix_total h2 with h4 | h4
        · exact absurd h4.length_le (by omega)
        · exact h4
      obtain ⟨s, hs⟩ := h4
      have hne : s ≠ [] := by rintro rfl; rw [List.append_nil] at hs; rw [← hs] at h3; omega
      rw [← hs] at h2
      have h5 : s ++ q = e.1 ++ b := by simpa using h2
      obtain ⟨h6, h7⟩ := hsep r hr e he s hne ⟨a', hs⟩ (prefix_total h5)
      refine ⟨h6.symm, ?_⟩
      rw [← hs] at h7
      have := congrArg List.length h7
      simp at this
      simp [this]
    · exfalso
      have h4 : r.1 <+: a' := by
        rcases prefix_total h2 with h4 | h4
        · exact h4
        · rw [h4.eq_of_length (by have := h4.length_le; omega)]
          exact List.prefix_refl _
      obtain ⟨a'', rfl⟩ := h4
      have h5 : q = a'' ++ (e.1 ++ b) := by simpa using h2
      obtain ⟨h6, h7⟩ := hsep r' hr' e he (e.1 ++ b) (by simp [hek]) ⟨y ++ a'', by rw [hq, h5]; simp⟩
        (.inr (List.prefix_append _ _))
      have := List.length_pos_iff.2 hy
      have h8 := congrArg List.length h7
      rw [hq, h5] at h8
      simp at h8
      omega

/-- Rules that can feed each other give a text that consists of a key between pieces of the other
key, and in which the first replacement makes the other key. -/
theorem feed_pieces {v k : Str} (hk : k ≠ []) (h : CanFeed v k) :
    ∃ w z y q, k = w ++ z ∧ z ≠ [] ∧ k = y ++ q ∧ y ≠ [] ∧ k <:+: w ++ v ++ q := by
  rcases h with ⟨s, h1, ⟨p, rfl⟩, ⟨q, rfl⟩ | ⟨x, rfl⟩⟩ | ⟨hv, s, h1, ⟨w, rfl⟩, ⟨x, rfl⟩ | ⟨q, rfl⟩⟩ | ⟨rfl, h⟩
  · exact ⟨[], _, s, q, rfl, hk, rfl, h1, p, [], by simp⟩
  · exact ⟨[], _, k, [], rfl, hk, by simp, hk, p, x, by simp⟩
  · exact ⟨w, s, _, [], rfl, h1, by simp, hk, [], x, by simp⟩
  · exact ⟨w, _, w ++ v, q, rfl, h1, by simp, by simp [hv], [], [], by simp⟩
  · match k, h with
    | c :: d :: k, _ => exact ⟨[c], d :: k, [c], d :: k, rfl, by simp, rfl, by simp, [], [], by simp⟩

theorem perm_two {α : Type} {l : List α} {r r' : α} (hr : r ∈ l) (hr' : r' ∈ l) (hne : r ≠ r') :
    ∃ rest, l.Perm (r :: r' :: rest) := by
  obtain ⟨l1, l2, e1⟩ := List.append_of_mem hr
  have hr2 : r' ∈ l1 ++ l2 := by
    rw [e1] at hr'
    rcases List.mem_append.mp hr' with h | h
    · exact List.mem_append_left _ h
    · rcases List.mem_cons.mp h with h | h
      · exact absurd h.symm hne
      · exact List.mem_append_right _ h
  obtain ⟨m1, m2, e2⟩ := List.append_of_mem hr2
  refine ⟨m1 ++ m2, ?_⟩
  rw [e1]
  refine List.perm_middle.trans (List.Perm.cons r ?_)
  rw [e2]
  exact List.perm_middle

/-- C15, exactly, for rules whose keys do not overlap each other or themselves: the iteration order
never matters if and only if no value can become part of the key of another rule, rules that replace
a key by itself aside. -/
theorem C15_separate_keys (x : LigatureTranslator) (hk : ∀ r ∈ x.map, r.1 ≠ [])
    (hnd : (x.map.map Prod.fst).Nodup) (hsep : SeparateKeys x.map) :
    (∀ (σ τ : Oracle) (text : Str), x.modify σ text = x.modify τ text) ↔
      ∀ r ∈ x.map, ∀ r' ∈ x.map, r ≠ r' → r'.2 ≠ r'.1 → ¬ CanFeed r.2 r'.1 := by
  constructor
  · intro h r hr r' hr' hne hid hf
    obtain ⟨w, z, y, q, hw, hz, hq, hy, hi⟩ := feed_pieces (hk r' hr') hf
    have honly : ∀ e ∈ x.map, ∀ a b, w ++ r.1 ++ q = a ++ e.1 ++ b → e = r ∧ a = w :=
      fun e he a b => only_occurrence hk hsep hr hr' he hw hz hq hy
    obtain ⟨rest, hrest⟩ := perm_two hr hr' hne
    obtain ⟨σ, hσ⟩ := Oracle.exists_iter (l := x.map) (l' := rest ++ [r, r'])
      ((List.perm_append_comm (l₁ := rest) (l₂ := [r, r'])).trans hrest.symm)
    obtain ⟨τ, hτ⟩ := Oracle.exists_iter (l := x.map) (l' := rest ++ [r', r])
      ((List.perm_append_comm (l₁ := rest) (l₂ := [r', r])).trans
        ((List.Perm.swap r r' rest).trans hrest.symm))
    have hsame : ∀ e ∈ x.map, e ≠ r → strReplace e.1 e.2 (w ++ r.1 ++ q) = w ++ r.1 ++ q := by
      intro e he hne
      refine strReplace_absent (hk e he) _ ?_
      rintro ⟨a, b, hab⟩
      exact hne (honly e he a b hab.symm).1
    have hfix : rest.foldl (fun text e => strReplace e.1 e.2 text) (w ++ r.1 ++ q) = w ++ r.1 ++ q := by
      have hno : ∀ e ∈ rest, e ∈ x.map ∧ e ≠ r := by
        intro e he
        refine ⟨hrest.mem_iff.mpr (by simp [he]), fun ed => ?_⟩
        have h2 := (hrest.map Prod.fst).nodup_iff.mp hnd
        rw [List.map_cons, List.nodup_cons] at h2
        exact h2.1 (List.mem_cons_of_mem _ (List.mem_map.2 ⟨e, he, by rw [ed]⟩))
      clear hrest hσ hτ
      induction rest with
      | nil => rfl
      | cons e rest ih =>
        obtain ⟨h1, h2⟩ := hno e (by simp)
        rw [List.foldl_cons, hsame e h1 h2]
        exact ih (fun e he => hno e (by simp [he]))
    have h1 := h σ τ (w ++ r.1 ++ q)
    simp only [LigatureTranslator.modify, hσ, hτ, List.foldl_append, hfix, List.foldl_cons,
      List.foldl_nil] at h1
    rw [hsame r' hr' (Ne.symm hne), strReplace_only (hk r hr) r.2 w q fun a b e => (honly r hr a b e).2] at h1
    exact hid (strReplace_eq_self (hk r' hr') hi h1)
  · intro h
    let p : Str × Str → Bool := fun r => decide (r.2 ≠ r.1)
    have hmod : ∀ (σ : Oracle) (text : Str), Replaced (x.map.filter p) text (x.modify σ text) ∧
        NonInterfering (x.map.filter p) := by
      intro σ text
      have hni : ∀ R : List (Str × Str), (∀ r, r ∈ R ↔ r ∈ x.map ∧ p r = true) → NonInterfering R := by
        intro R hR
        constructor
        · exact fun r hr => hk r ((hR r).mp hr).1
        · intro r hr r' hr' hne
          obtain ⟨hr, hp⟩ := (hR r).mp hr
          obtain ⟨hr', hp'⟩ := (hR r').mp hr'
          have hnot := h r hr r' hr' (fun e => hne (by rw [e])) (by simpa [p] using hp')
          refine ⟨?_, fun hs => hnot (.inl hs), ?_⟩
          · rintro ⟨s, h1, h2, h3⟩
            exact hne (by rw [(hsep r hr r' hr' s h1 h2 h3).1])
          · split
            · rename_i hv
              refine Classical.byContradiction fun hl => hnot (.inr (.inr ⟨hv, ?_⟩))
              have := List.length_pos_iff.2 (hk r' hr')
              omega
            · rename_i hv
              exact fun hs => hnot (.inr (.inl ⟨hv, hs⟩))
      have hp := (σ.iter_perm x.map).filter p
      refine ⟨?_, hni _ (fun r => by simp [List.mem_filter])⟩
      have hf : x.modify σ text = ((σ.iter x.map).filter p).foldl (fun text e => strReplace e.1 e.2 text) text := by
        rw [LigatureTranslator.modify]
        apply foldl_filter_id
        intro r hr hpr t
        have : r.2 = r.1 := by simpa [p] using hpr
        rw [this, strReplace_self (hk r ((σ.iter_perm x.map).mem_iff.mp hr))]
      rw [hf]
      have := foldl_replaced ((σ.iter x.map).filter p) [] text text
        (hni _ (fun r => by rw [List.append_nil, hp.mem_iff, List.mem_filter]))
        (by
          rw [List.append_nil]
          exact ((hp.map Prod.fst).nodup_iff).mpr (hnd.sublist (List.filter_sublist.map _)))
        (Replaced.refl_nil text)
      exact Replaced.congr (fun r => by rw [List.append_nil]; exact hp.mem_iff) this
    intro σ τ text
    exact (hmod σ text).1.unique (hmod σ text).2 (hnd.sublist (List.filter_sublist.map _)) (hmod τ text).1

/-- A rule map of this kind for which the order never matters, one rule replacing its key by itself;
and one for which it does, a value beginning another key. -/
def exSep : List (Str × Str) := [(c! "か゛", c! "が"), (c! "ha", c! "ha"), (c! "xy", c! "cha")]
def exFed : List (Str × Str) := [(c! "x", c! "a"), (c! "bc", c! "d"), (c! "ae", c! "f")]

example : (∀ r ∈ exSep, r.1 ≠ []) ∧ (exSep.map Prod.fst).Nodup ∧ SeparateKeys exSep ∧
    ∀ r ∈ exSep, ∀ r' ∈ exSep, r ≠ r' → r'.2 ≠ r'.1 → ¬ CanFeed r.2 r'.1 := by decide +kernel
example : (∀ r ∈ exFed, r.1 ≠ []) ∧ (exFed.map Prod.fst).Nodup ∧ SeparateKeys exFed ∧
    (¬ ∀ r ∈ exFed, ∀ r' ∈ exFed, r ≠ r' → r'.2 ≠ r'.1 → ¬ CanFeed r.2 r'.1) ∧
    LigatureTranslator.modify ⟨exFed⟩ .insertion (c! "xe") = c! "f" ∧
    LigatureTranslator.modify ⟨exFed⟩ .reversed (c! "xe") = c! "ae" := by decide +kernel
example : SeparateKeys [(c! "~", []), (c! "ab", c! "x")] ∧ CanFeed [] (c! "ab") := by decide +kernel
/-- Keys that overlap are not covered. -/
example : ¬ SeparateKeys [(c! "aa", c! "b")] ∧ ¬ SeparateKeys [(c! "ab", c! "x"), (c! "bc", c! "y")] := by
  decide +kernel

theorem Perm.foldl_commute {α β : Type} (f : β → α → β) {l l' : List α} (h : l.Perm l')
    (hc : ∀ a ∈ l, ∀ b ∈ l, ∀ x, f (f x a) b = f (f x b) a) : ∀ x, l.foldl f x = l'.foldl f x := by
  induction h with
  | nil => exact fun _ => rfl
  | cons a _ ih => exact fun x => ih (fun a ha b hb => hc a (by simp [ha]) b (by simp [hb])) _
  | swap a b l => exact fun x => by simp only [List.foldl_cons]; rw [hc a (by simp) b (by simp)]
  | trans h1 _ ih1 ih2 =>
    exact fun x => (ih1 hc x).trans (ih2 (fun a ha b hb => hc a (h1.mem_iff.2 ha) b (h1.mem_iff.2 hb)) x)

/-- C15: when the iteration order matters for a rule map, it matters already for two of its rules on
their own. -/
theorem C15_two_rules (x : LigatureTranslator)
    (h : ∀ r ∈ x.map, ∀ r' ∈ x.map, r ≠ r' → ∀ (σ τ : Oracle) (text : Str),
      LigatureTranslator.modify ⟨[r, r']⟩ σ text = LigatureTranslator.modify ⟨[r, r']⟩ τ text)
    (σ τ : Oracle) (text : Str) : x.modify σ text = x.modify τ text := by
  rw [LigatureTranslator.modify, LigatureTranslator.modify]
  refine Perm.foldl_commute _ ((σ.iter_perm x.map).trans (τ.iter_perm x.map).symm) ?_ text
  intro r hr r' hr' t
  by_cases e : r = r'
  · rw [e]
  · obtain ⟨σ', hσ⟩ := Oracle.exists_iter (l := [r, r']) (l' := [r, r']) (List.Perm.refl _)
    obtain ⟨τ', hτ⟩ := Oracle.exists_iter (l := [r, r']) (l' := [r', r]) (List.Perm.swap _ _ _)
    have := h r ((σ.iter_perm _).mem_iff.1 hr) r' ((σ.iter_perm _).mem_iff.1 hr') e σ' τ' t
    simpa [LigatureTranslator.modify, hσ, hτ] using this

example : ∀ r ∈ exSep, ∀ r' ∈ exSep, r ≠ r' → ∀ (σ τ : Oracle) (text : Str),
    LigatureTranslator.modify ⟨[r, r']⟩ σ text = LigatureTranslator.modify ⟨[r, r']⟩ τ text := by
  intro r hr r' hr' hne
  have hall : ∀ r ∈ exSep, ∀ r' ∈ exSep, r ≠ r' → (∀ e ∈ [r, r'], e.1 ≠ []) ∧
      ([r, r'].map Prod.fst).Nodup ∧ SeparateKeys [r, r'] ∧
      ∀ e ∈ [r, r'], ∀ e' ∈ [r, r'], e ≠ e' → e'.2 ≠ e'.1 → ¬ CanFeed e.2 e'.1 := by decide +kernel
  obtain ⟨h1, h2, h3, h4⟩ := hall r hr r' hr' hne
  exact (C15_separate_keys ⟨[r, r']⟩ h1 h2 h3).2 h4

/-- Replacing `a`s by as many `z`s changes only `a`s to `z`. -/
private theorem map_az {k v : Str} (hk : k ≠ []) (hkv : k.map (fun c => if c = 'a' then 'z' else c) =
    v.map (fun c => if c = 'a' then 'z' else c)) (t : Str) :
    (strReplace k v t).map (fun c => if c = 'a' then 'z' else c) =
      t.map (fun c => if c = 'a' then 'z' else c) := by
  have h := strReplace_replaced hk v t
  generalize strReplace k v t = o at h
  induction h with
  | nil => rfl
  | hit h1 _ _ ih =>
    simp only [List.mem_singleton, Prod.mk.injEq] at h1
    rw [List.map_append, List.map_append, ih, h1.1, h1.2, hkv]
  | keep _ _ ih => rw [List.map_cons, List.map_cons, ih]

/-- Replacing does not bring in characters that are not in the value. -/
private theorem not_mem_replace {k v : Str} (hk : k ≠ []) {a : Char} (hv : a ∉ v) (t : Str)
    (h : a ∉ t ∨ k = [a]) : a ∉ strReplace k v t := by
  have h0 := strReplace_replaced hk v t
  generalize strReplace k v t = o at h0
  induction h0 with
  | nil => simp
  | hit h1 _ _ ih =>
    simp only [List.mem_singleton, Prod.mk.injEq] at h1
    rw [h1.2, List.mem_append, not_or]
    exact ⟨hv, ih (h.imp_left fun h => by simp_all)⟩
  | @keep c t o h1 _ ih =>
    rw [List.mem_cons, not_or]
    refine ⟨?_, ih (h.imp_left fun h => by simp_all)⟩
    rcases h with h | h
    · simp_all
    · intro e
      subst e
      exact h1 _ (List.mem_singleton.2 rfl) ⟨t, by simp [h]⟩

/-- C15: the converse of `C15_two_rules` does not hold: with the rules `aa → zz`, `aaa → zzz` and
`a → z` the order never matters, although it does for the first two on their own. -/
theorem C15_two_rules_not_conversely :
    ∃ r r' r'' : Str × Str, ([r, r', r''].map Prod.fst).Nodup ∧
      (∀ (σ τ : Oracle) (text : Str), LigatureTranslator.modify ⟨[r, r', r'']⟩ σ text =
        LigatureTranslator.modify ⟨[r, r', r'']⟩ τ text) ∧
      ∃ (σ τ : Oracle) (text : Str), LigatureTranslator.modify ⟨[r, r']⟩ σ text ≠
        LigatureTranslator.modify ⟨[r, r']⟩ τ text := by
  refine ⟨(c! "aa", c! "zz"), (c! "aaa", c! "zzz"), (c! "a", c! "z"), by decide +kernel, ?_,
    .insertion, .reversed, c! "aaa", by decide +kernel⟩
  have key : ∀ (l : List (Str × Str)) (t : Str),
      (∀ e ∈ l, e.1 ≠ [] ∧ 'a' ∉ e.2 ∧ e.1.map (fun c => if c = 'a' then 'z' else c) =
        e.2.map (fun c => if c = 'a' then 'z' else c)) →
      (l.foldl (fun text e => strReplace e.1 e.2 text) t).map (fun c => if c = 'a' then 'z' else c) =
        t.map (fun c => if c = 'a' then 'z' else c) ∧
      ('a' ∉ t ∨ (c! "a", c! "z") ∈ l → 'a' ∉ l.foldl (fun text e => strReplace e.1 e.2 text) t) := by
    intro l
    induction l with
    | nil => intro t _; exact ⟨rfl, fun h => h.resolve_right (by simp)⟩
    | cons e l ih =>
      intro t he
      obtain ⟨h1, h2, h3⟩ := he e List.mem_cons_self
      obtain ⟨h4, h5⟩ := ih (strReplace e.1 e.2 t) (fun e' h => he e' (List.mem_cons_of_mem _ h))
      rw [List.foldl_cons]
      refine ⟨h4.trans (map_az h1 h3 t), fun h => h5 ?_⟩
      rcases h with h | h
      · exact .inl (not_mem_replace h1 h2 t (.inl h))
      · rcases List.mem_cons.1 h with h | h
        · exact .inl (not_mem_replace h1 h2 t (.inr (by rw [← h])))
        · exact .inr h
  have out : ∀ (σ : Oracle) (text : Str), LigatureTranslator.modify
      ⟨[(c! "aa", c! "zz"), (c! "aaa", c! "zzz"), (c! "a", c! "z")]⟩ σ text =
      text.map (fun c => if c = 'a' then 'z' else c) := by
    intro σ text
    have hp := σ.iter_perm [(c! "aa", c! "zz"), (c! "aaa", c! "zzz"), (c! "a", c! "z")]
    obtain ⟨h1, h2⟩ := key (σ.iter [(c! "aa", c! "zz"), (c! "aaa", c! "zzz"), (c! "a", c! "z")]) text
      (fun e he => by
        have := hp.mem_iff.1 he
        revert e
        intro e _ he
        simp only [List.mem_cons, List.not_mem_nil, or_false] at he
        rcases he with rfl | rfl | rfl <;> decide +kernel)
    have h3 := h2 (.inr (hp.mem_iff.2 (by simp)))
    rw [LigatureTranslator.modify, ← h1]
    generalize List.foldl _ _ _ = o at h3 ⊢
    induction o with
    | nil => rfl
    | cons c o ih =>
      simp only [List.mem_cons, not_or] at h3
      rw [List.map_cons, ← ih h3.2, if_neg (Ne.symm h3.1)]
  intro σ τ text
  rw [out, out]

end Chanoma
