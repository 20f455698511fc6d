import Verif.Proofs.Ligature
/-! # C14, C15: the ligature translator -/

namespace Chanoma

/-- C14: with the single rule `f → t`, a text without `f` is unchanged, and otherwise the first
occurrence of `f` is replaced and the rest is treated the same way. -/
theorem C14_single_ligature (σ : Oracle) (f t text : Str) (hf : f ≠ []) :
    let run := fun s => (LigatureTranslator.mk [(f, t)]).modify σ s
    (¬ f <:+: text → run text = text) ∧
    (∀ u v : Str, text = u ++ f ++ v →
      (∀ u' v' : Str, text = u' ++ f ++ v' → u.length ≤ u'.length) → run text = u ++ t ++ run v) := by
  have hrun : ∀ s, (LigatureTranslator.mk [(f, t)]).modify σ s = strReplace f t s := by
    intro s
    have := σ.iter_perm [(f, t)]
    rw [List.perm_singleton] at this
    simp [LigatureTranslator.modify, this]
  simp only [hrun]
  constructor
  · intro h
    induction text with
    | nil => exact strReplace_nil hf t
    | cons c s ih =>
      rw [strReplace_keep hf t fun hp => h hp.isInfix, ih fun hi => h (hi.trans (List.suffix_cons c s).isInfix)]
  · intro u v hs hmin
    induction u generalizing text with
    | nil => rw [hs]; simpa using strReplace_hit hf t v
    | cons c u ih =>
      rw [hs, List.cons_append, List.cons_append, strReplace_keep hf t, ih (u ++ f ++ v) rfl]
      · rfl
      · intro u' v' h
        have := hmin (c :: u') v' (by rw [hs]; simp [h])
        simpa using this
      · rintro ⟨v', h⟩
        have := hmin [] v' (by rw [hs]; simpa using h.symm)
        simp at this

example : (LigatureTranslator.mk [(c! "aa", c! "b")]).modify Oracle.insertion (c! "caaad") = c! "cbad" := by
  decide +kernel
example : c! "caaad" = c! "c" ++ c! "aa" ++ c! "ad" ∧
    ∀ u' v' : Str, c! "caaad" = u' ++ c! "aa" ++ v' → (c! "c").length ≤ u'.length := by
  refine ⟨by decide +kernel, ?_⟩
  intro u' v' h
  cases u' with
  | nil => simp at h
  | cons _ _ => simp

/-- C14, the same as one statement: the result is the left-to-right replacement. -/
theorem C14_single_ligature_scan (σ : Oracle) (f t text : Str) (hf : f ≠ []) :
    Replaced [(f, t)] text ((LigatureTranslator.mk [(f, t)]).modify σ text) := by
  have := σ.iter_perm [(f, t)]
  rw [List.perm_singleton] at this
  simp only [LigatureTranslator.modify, this, List.foldl_cons, List.foldl_nil]
  exact strReplace_replaced hf t text

/-- C15 is false in general: with the rules `a → b` and `b → c`, the result for `a` depends on
the iteration order of the rule map. -/
theorem C15_order_matters :
    ∃ (x : LigatureTranslator) (σ τ : Oracle) (text : Str), (x.map.map Prod.fst).Nodup ∧
      x.modify σ text ≠ x.modify τ text :=
  ⟨⟨[(c! "a", c! "b"), (c! "b", c! "c")]⟩, Oracle.insertion, Oracle.reversed, c! "a",
    by decide +kernel, by decide +kernel⟩

/-- C15, for rules that do not interfere: the result is the simultaneous left-to-right
replacement, which determines it, so every iteration order gives the same.
Missing for the full claim: interfering rules, for which `C15_order_matters` refutes it. -/
theorem C15_ligature_order_partial (x : LigatureTranslator) (hni : NonInterfering x.map)
    (hnd : (x.map.map Prod.fst).Nodup) (text : Str) :
    (∀ σ : Oracle, Replaced x.map text (x.modify σ text)) ∧
    (∀ o o' : Str, Replaced x.map text o → Replaced x.map text o' → o = o') ∧
    (∀ σ τ : Oracle, x.modify σ text = x.modify τ text) :=
  ⟨fun σ => ligature_replaced x σ text hni hnd, fun _ _ h h' => h.unique hni hnd h',
   fun σ τ => (ligature_replaced x σ text hni hnd).unique hni hnd (ligature_replaced x τ text hni hnd)⟩

/-- Non-trivial rules that do not interfere. -/
example : NonInterfering [(c! "か゛", c! "が"), (c! "ab", c! "xyx"), (c! "c", c! "zz"), (c! "dd", c! "d")] := by
  decide +kernel
/-- Values may share characters with other keys, and rules may delete. -/
example : NonInterfering [(c! "ab", c! "ca"), (c! "cd", c! "xad")] ∧
    NonInterfering [(c! "~", []), (c! "-", c! "ー"), (c! "−", c! "ー")] := by decide +kernel
example : ¬ NonInterfering [(c! "ab", c! "x"), (c! "bc", c! "y")] := by decide +kernel
/-- A deletion next to a longer key does interfere: deleting `~` in `a~b` makes `ab`. -/
example : ¬ NonInterfering [(c! "~", []), (c! "ab", c! "x")] ∧
    (LigatureTranslator.mk [(c! "~", []), (c! "ab", c! "x")]).modify .insertion (c! "a~b") = c! "x" ∧
    (LigatureTranslator.mk [(c! "~", []), (c! "ab", c! "x")]).modify .reversed (c! "a~b") = c! "ab" := by
  decide +kernel

/-- Every permutation of a collection is the iteration order of some oracle, so that quantifying
over oracles is quantifying over all orders. -/
theorem Oracle.exists_iter {β : Type} {l l' : List β} (h : l'.Perm l) : ∃ σ : Oracle, σ.iter l = l' := by
  classical
  refine ⟨⟨fun {α} m => if e : ∃ e : β = α, e ▸ l = m then e.choose ▸ l' else m, ?_⟩, ?_⟩
  · intro α m
    split
    · rename_i e
      obtain ⟨e1, e2⟩ := e
      subst e1
      subst e2
      exact h
    · exact List.Perm.refl _
  · have : ∃ e : β = β, e ▸ l = l := ⟨rfl, rfl⟩
    simp

theorem strReplace_char (k : Char) (v t : Str) :
    strReplace [k] v t = t.flatMap fun c => if c = k then v else [c] := by
  induction t with
  | nil => exact strReplace_nil (by simp) v
  | cons c t ih =>
    rw [List.flatMap_cons]
    by_cases hc : c = k
    · subst hc
      rw [if_pos rfl, ← ih]
      exact strReplace_hit (k := [c]) (by simp) v t
    · rw [if_neg hc, strReplace_keep (by simp) v (by
        rw [List.cons_prefix_cons]; exact fun h => hc h.1.symm), ih]; rfl

theorem strReplace_char_id (k : Char) (t : Str) : strReplace [k] [k] t = t := by
  rw [strReplace_char]
  induction t with
  | nil => rfl
  | cons c t ih =>
    rw [List.flatMap_cons, ih]
    split
    · rename_i e; rw [e]; rfl
    · rfl

theorem strReplace_char_absent {k : Char} (v : Str) {t : Str} (h : k ∉ t) : strReplace [k] v t = t := by
  rw [strReplace_char]
  induction t with
  | nil => rfl
  | cons c t ih =>
    rw [List.flatMap_cons, ih (fun e => h (by simp [e])), if_neg (fun e => h (by simp [e]))]; rfl

theorem strReplace_char_length (k : Char) (v t : Str) :
    (strReplace [k] v t).length + t.count k = t.length + t.count k * v.length := by
  rw [strReplace_char]
  induction t with
  | nil => simp
  | cons c t ih =>
    rw [List.flatMap_cons, List.length_append, List.count_cons, List.length_cons]
    by_cases hc : c = k
    · simp only [hc, if_true, BEq.rfl, Nat.add_mul, Nat.one_mul]; omega
    · have hb : (c == k) = false := by simpa using hc
      simp only [hc, hb, if_false, List.length_cons, List.length_nil]
      simp only [Bool.false_eq_true, if_false, Nat.add_zero]
      omega

/-- Replacing a character that occurs leaves the text as it is only if the character is replaced by
itself. -/
theorem strReplace_char_eq {k : Char} {v t : Str} (hk : k ∈ t) (h : strReplace [k] v t = t) : v = [k] := by
  have h1 := strReplace_char_length k v t
  have h2 := List.count_pos_iff.mpr hk
  rw [h] at h1
  have h3 : v.length = 1 := by
    have : t.count k * v.length = t.count k * 1 := by omega
    exact Nat.eq_of_mul_eq_mul_left h2 this
  match v, h3 with
  | [d], _ =>
    rw [strReplace_char] at h
    clear h1 h2
    induction t with
    | nil => simp at hk
    | cons c t ih =>
      rw [List.flatMap_cons] at h
      by_cases hc : c = k
      · simp only [hc, if_true, List.cons_append, List.cons.injEq] at h
        rw [h.1]
      · simp only [hc, if_false, List.cons_append, List.nil_append, List.cons.injEq, true_and] at h
        exact ih ((List.mem_cons.mp hk).resolve_left (fun e => hc e.symm)) h

theorem foldl_filter_id (p : Str × Str → Bool)
    (R : List (Str × Str)) (h : ∀ r ∈ R, p r = false → ∀ t, strReplace r.1 r.2 t = t) (t : Str) :
    R.foldl (fun text e => strReplace e.1 e.2 text) t =
      (R.filter p).foldl (fun text e => strReplace e.1 e.2 text) t := by
  induction R generalizing t with
  | nil => rfl
  | cons r R ih =>
    rw [List.foldl_cons, List.filter_cons]
    split
    · exact ih (fun r hr => h r (by simp [hr])) _
    · rename_i hp
      rw [h r (by simp) (by simpa using hp)]
      exact ih (fun r hr => h r (by simp [hr])) _

theorem canStart_char {c : Char} {s : Str} (h : CanStartIn [c] s) : c ∈ s := by
  obtain ⟨u, h1, h2, h3⟩ := h
  obtain ⟨d, u, rfl⟩ := List.exists_cons_of_ne_nil h1
  have : d = c := by
    rcases h3 with h3 | h3
    · exact (List.cons_prefix_cons.mp h3).1
    · exact (List.cons_prefix_cons.mp h3).1.symm
  subst this
  exact h2.subset (by simp)

theorem canStart_in_char {c : Char} {v : Str} (h : CanStartIn v [c]) : v = [] ∨ c ∈ v := by
  obtain ⟨u, h1, h2, h3⟩ := h
  have hu : u = [c] := by
    rcases List.suffix_cons_iff.mp h2 with h | h
    · exact h
    · exact absurd (List.suffix_nil.mp h) h1
  subst hu
  rcases h3 with h3 | h3
  · exact .inr (h3.subset (by simp))
  · cases v with
    | nil => exact .inl rfl
    | cons d v => exact .inr (by simp [(List.cons_prefix_cons.mp h3).1])

/-- C15, exactly, for rules that replace single characters: the iteration order never matters if and
only if no value contains the character of another rule, rules that replace a character by itself
aside. -/
theorem C15_single_characters (x : LigatureTranslator) (hk : ∀ r ∈ x.map, r.1.length = 1)
    (hnd : (x.map.map Prod.fst).Nodup) :
    (∀ (σ τ : Oracle) (text : Str), x.modify σ text = x.modify τ text) ↔
      ∀ r ∈ x.map, ∀ r' ∈ x.map, r ≠ r' → r'.2 ≠ r'.1 → ∀ c ∈ r'.1, c ∉ r.2 := by
  have hchar : ∀ r ∈ x.map, ∃ c, r.1 = [c] := fun r hr => List.length_eq_one_iff.mp (hk r hr)
  constructor
  · intro h r hr r' hr' hne hid c hc hcr
    obtain ⟨k, ek⟩ := hchar r hr
    obtain ⟨k', ek'⟩ := hchar r' hr'
    have : c = k' := by rw [ek'] at hc; simpa using hc
    subst this
    have hkk : k ≠ c := fun e => hne (nodup_map_inj hnd hr hr' (by rw [ek, ek', e]))
    obtain ⟨rest, hrest⟩ : ∃ rest, x.map.Perm (r :: r' :: rest) := by
      obtain ⟨l1, l2, e1⟩ := List.append_of_mem hr
      have hr2 : r' ∈ l1 ++ l2 := by
        rw [e1] at hr'
        rcases List.mem_append.mp hr' with h | h
        · exact List.mem_append_left _ h
        · rcases List.mem_cons.mp h with h | h
          · exact absurd h.symm hne
          · exact List.mem_append_right _ h
      obtain ⟨m1, m2, e2⟩ := List.append_of_mem hr2
      refine ⟨m1 ++ m2, ?_⟩
      rw [e1]
      refine List.perm_middle.trans (List.Perm.cons r ?_)
      rw [e2]
      exact List.perm_middle
    obtain ⟨σ, hσ⟩ := Oracle.exists_iter (l := x.map) (l' := rest ++ [r, r'])
      ((List.perm_append_comm (l₁ := rest) (l₂ := [r, r'])).trans hrest.symm)
    obtain ⟨τ, hτ⟩ := Oracle.exists_iter (l := x.map) (l' := rest ++ [r', r])
      ((List.perm_append_comm (l₁ := rest) (l₂ := [r', r])).trans
        ((List.Perm.swap r r' rest).trans hrest.symm))
    have hfix : rest.foldl (fun text e => strReplace e.1 e.2 text) [k] = [k] := by
      have hno : ∀ e ∈ rest, ∃ d, e.1 = [d] ∧ d ≠ k := by
        intro e he
        have hm : e ∈ x.map := hrest.mem_iff.mpr (by simp [he])
        obtain ⟨d, hd⟩ := hchar e hm
        refine ⟨d, hd, fun ed => ?_⟩
        have h2 := (hrest.map Prod.fst).nodup_iff.mp hnd
        rw [List.map_cons, List.nodup_cons] at h2
        exact h2.1 (by rw [ek, ← ed, ← hd]; simp; exact .inr ⟨_, he⟩)
      clear hrest hσ hτ
      induction rest with
      | nil => rfl
      | cons e rest ih =>
        obtain ⟨d, hd, hdk⟩ := hno e (by simp)
        rw [List.foldl_cons, hd, strReplace_char_absent e.2 (by simpa using hdk)]
        exact ih (fun e he => hno e (by simp [he]))
    have h1 := h σ τ [k]
    simp only [LigatureTranslator.modify, hσ, hτ, List.foldl_append, hfix, List.foldl_cons,
      List.foldl_nil, ek, ek'] at h1
    have h2 : strReplace [k] r.2 [k] = r.2 := by rw [strReplace_char]; simp
    rw [strReplace_char_absent (k := c) (t := [k]) r'.2 (by simpa using hkk.symm), h2] at h1
    exact hid (by rw [ek']; exact strReplace_char_eq hcr h1)
  · intro h
    let p : Str × Str → Bool := fun r => decide (r.2 ≠ r.1)
    have hmod : ∀ (σ : Oracle) (text : Str), Replaced (x.map.filter p) text (x.modify σ text) ∧
        NonInterfering (x.map.filter p) := by
      intro σ text
      have hni : ∀ R : List (Str × Str), (∀ r, r ∈ R ↔ r ∈ x.map ∧ p r = true) → NonInterfering R := by
        intro R hR
        constructor
        · intro r hr e
          have := hk r ((hR r).mp hr).1
          rw [e] at this; simp at this
        · intro r hr r' hr' hne
          obtain ⟨hr, hp⟩ := (hR r).mp hr
          obtain ⟨hr', hp'⟩ := (hR r').mp hr'
          obtain ⟨k, ek⟩ := hchar r hr
          obtain ⟨k', ek'⟩ := hchar r' hr'
          have hnot : k' ∉ r.2 := h r hr r' hr' (fun e => hne (by rw [e])) (by simpa [p] using hp') k' (by simp [ek'])
          refine ⟨fun hs => hne ?_, fun hs => ?_, ?_⟩
          · rw [ek'] at hs
            have := canStart_char hs
            rw [ek] at this
            rw [ek, ek', List.mem_singleton.mp this]
          · rw [ek'] at hs; exact hnot (canStart_char hs)
          · split
            · exact hk r' hr'
            · rename_i hv
              intro hs
              rw [ek'] at hs
              rcases canStart_in_char hs with h | h
              · exact hv h
              · exact hnot h
      have hp := (σ.iter_perm x.map).filter p
      refine ⟨?_, hni _ (fun r => by simp [List.mem_filter])⟩
      have hf : x.modify σ text = ((σ.iter x.map).filter p).foldl (fun text e => strReplace e.1 e.2 text) text := by
        rw [LigatureTranslator.modify]
        apply foldl_filter_id
        intro r hr hpr t
        obtain ⟨k, ek⟩ := hchar r ((σ.iter_perm x.map).mem_iff.mp hr)
        have : r.2 = r.1 := by simpa [p] using hpr
        rw [this, ek, strReplace_char_id]
      rw [hf]
      have := foldl_replaced ((σ.iter x.map).filter p) [] text text
        (hni _ (fun r => by rw [List.append_nil, hp.mem_iff, List.mem_filter]))
        (by
          rw [List.append_nil]
          exact ((hp.map Prod.fst).nodup_iff).mpr (hnd.sublist (List.filter_sublist.map _)))
        (Replaced.refl_nil text)
      exact Replaced.congr (fun r => by rw [List.append_nil]; exact hp.mem_iff) this
    intro σ τ text
    exact (hmod σ text).1.unique (hmod σ text).2 (hnd.sublist (List.filter_sublist.map _)) (hmod τ text).1

/-- Rules with and without the condition; the identical rule `a → a` does no harm. -/
example : (∀ r ∈ [(c! "a", c! "a"), (c! "b", c! "xax"), (c! "c", [])],
      ∀ r' ∈ [(c! "a", c! "a"), (c! "b", c! "xax"), (c! "c", [])],
      r ≠ r' → r'.2 ≠ r'.1 → ∀ c ∈ r'.1, c ∉ r.2) ∧
    ¬ ∀ r ∈ [(c! "a", c! "b"), (c! "b", c! "a")], ∀ r' ∈ [(c! "a", c! "b"), (c! "b", c! "a")],
      r ≠ r' → r'.2 ≠ r'.1 → ∀ c ∈ r'.1, c ∉ r.2 := by simp

end Chanoma
