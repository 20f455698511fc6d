import Verif.Props.Backwards
/-! # C90: what is settled if something is put in front of a text -/

namespace Chanoma

theorem butLast_reverse (d : Nat) (t : Str) : butLast d t.reverse = (t.drop d).reverse := by
  rw [butLast, List.take_reverse, List.length_reverse]
  by_cases h : d ≤ t.length
  · rw [Nat.sub_sub_self h]
  · rw [List.drop_eq_nil_of_le (i := d) (by omega), List.drop_eq_nil_of_le (by omega)]

/-- What `f` does to texts read backwards. -/
def mirror (f : Str → Str) (t : Str) : Str := (f t.reverse).reverse

theorem mirror_eq {f g : Str → Str} (h : ∀ t, g t.reverse = (f t).reverse) : mirror f = g := by
  funext t
  rw [mirror, ← h, List.reverse_reverse]

theorem compose_end (x u : Str) : ∃ p, (composeMarks (x ++ u) = p ++ composeMarks u ∨
    ∃ a m b v, composeMarks u = m :: v ∧ voiced a m = some b ∧ composeMarks (x ++ u) = p ++ b :: v) ∧
    p.length ≤ x.length := by
  have step : ∀ (c : Char) (n : Nat) (o : Str), (∃ p, (o = p ++ composeMarks u ∨
      ∃ a m b v, composeMarks u = m :: v ∧ voiced a m = some b ∧ o = p ++ b :: v) ∧ p.length ≤ n) →
      ∃ p, (c :: o = p ++ composeMarks u ∨
      ∃ a m b v, composeMarks u = m :: v ∧ voiced a m = some b ∧ c :: o = p ++ b :: v) ∧ p.length ≤ n + 1 := by
    rintro c n o ⟨p, h | ⟨a, m, b, v, h1, h2, h3⟩, hp⟩
    · exact ⟨c :: p, .inl (by rw [h]; rfl), by simpa using hp⟩
    · exact ⟨c :: p, .inr ⟨a, m, b, v, h1, h2, by rw [h3]; rfl⟩, by simpa using hp⟩
  induction x using compose_induction with
  | h0 => exact ⟨[], .inl rfl, Nat.le_refl _⟩
  | h1 a =>
    cases u with
    | nil => exact ⟨[a], .inl rfl, Nat.le_refl _⟩
    | cons m u =>
      cases hv : voiced a m with
      | none => exact ⟨[a], .inl (by rw [List.singleton_append, compose_keep hv]; rfl), Nat.le_refl _⟩
      | some b =>
        refine ⟨[], .inr ⟨a, m, b, composeMarks u, ?_, hv, ?_⟩, Nat.zero_le _⟩
        · cases u with
          | nil => rfl
          | cons d u =>
            refine compose_keep ?_ u
            rcases voiced_mark hv with rfl | rfl
            · simp [voiced]
            · simp [voiced]
        · rw [List.singleton_append, compose_hit hv]; rfl
  | h2 a m t b h ih =>
    rw [List.cons_append, List.cons_append, compose_hit h]
    obtain ⟨p, h1, h2⟩ := step b _ _ ih
    exact ⟨p, h1, by simp at h2 ⊢; omega⟩
  | h3 a m t h ih =>
    rw [List.cons_append, List.cons_append, compose_keep h]
    exact step a _ _ ih

theorem compose_mirror : Settles (fun n => n + 1) (mirror composeMarks) := by
  intro n u x y hx
  rw [mirror, mirror, butLast_reverse, List.reverse_prefix, List.reverse_append, List.reverse_append]
  have hx' : x.reverse.length ≤ n := by simpa using hx
  generalize x.reverse = x at *
  generalize y.reverse = y at *
  generalize u.reverse = u at *
  have tail : ∀ x : Str, (composeMarks u).tail <:+ composeMarks (x ++ u) := by
    intro x
    obtain ⟨p, h | ⟨a, m, b, v, h1, h2, h3⟩, -⟩ := compose_end x u
    · rw [h]; exact (List.tail_suffix _).trans (List.suffix_append _ _)
    · rw [h1, h3]; exact (List.suffix_cons b v).trans (List.suffix_append _ _)
  have len : (composeMarks (x ++ u)).length ≤ (composeMarks u).length + n := by
    obtain ⟨p, h | ⟨a, m, b, v, h1, h2, h3⟩, hp⟩ := compose_end x u
    · rw [h, List.length_append]; omega
    · rw [h1, h3, List.length_append, List.length_cons, List.length_cons]; omega
  refine (List.suffix_of_suffix_length_le (List.drop_suffix _ _) (tail x) ?_).trans (tail y)
  rw [List.length_drop, List.length_tail]
  show _ - (n + 1) ≤ _
  omega

theorem front_reverse (t : Str) : neologdnFront t.reverse = (neologdnFront t).reverse := by
  rw [neologdnFront, neologdnFront, List.map_reverse, squeeze_reverse, ← dotted_eq, dotted_reverse, dotted_eq,
    List.filter_reverse]

theorem neologdn_mirror : Settles (fun n => n + 1 + 1) (mirror neologdnSpec) := by
  have h := (Settles.of_grows 1 front_grows).comp compose_mirror
  have e : mirror neologdnSpec = fun t => mirror composeMarks (neologdnFront t) := by
    funext t
    rw [mirror, mirror, ← front_reverse]; rfl
  rw [e]; exact h

theorem neologdn_keeps_front (t more : Str) : (neologdnSpec t).drop 1 <:+ neologdnSpec (more ++ t) := by
  obtain ⟨r, h, -⟩ := front_grows t.reverse more.reverse
  have := compose_mirror 0 (neologdnFront t.reverse) [] r (Nat.le_refl _)
  rw [List.append_nil, ← h, ← List.reverse_append, front_reverse, front_reverse, mirror, mirror,
    List.reverse_reverse, List.reverse_reverse, butLast_reverse, List.reverse_prefix] at this
  exact this

theorem modify_settles_front {m : ModifierKind} (hw : m.WF) (ht : m ≠ .trim)
    (hl : ∀ x, m = .ligatureTranslator x → ∀ r ∈ x.map, OverlapsAgree r.1 r.2) : ∃ φ, ∀ σ, ∃ f, Settles φ (mirror f) ∧
    ∀ t, m.modify σ t = .ok (f t) := by
  by_cases hb : m.LooksBack
  · cases m with
    | ligatureTranslator x =>
      obtain ⟨B, hB⟩ := rules_bounded x.map
      refine ⟨rulesModulus B x.map.length, fun σ => ⟨_, ?_, fun t => rfl⟩⟩
      have hp := σ.iter_perm x.map
      have := rules_settle B ((σ.iter x.map).map backwards) (by
        simp only [List.mem_map]
        rintro _ ⟨r, hr, rfl⟩
        simpa [backwards] using hB r (hp.mem_iff.1 hr))
      rw [List.length_map, hp.length_eq] at this
      rw [mirror_eq (f := x.modify σ) (g := fun t => ((σ.iter x.map).map backwards).foldl (fun t e => strReplace e.1 e.2 t) t)
        (rules_reverse _ fun r hr => hl x rfl r (hp.mem_iff.1 hr))]
      exact this
    | neologdn x =>
      obtain ⟨τ, hτ⟩ := hw
      obtain ⟨y, h1, -, h2, -⟩ := neologdn_new τ
      rw [h1] at hτ; cases hτ
      exact ⟨_, fun σ => ⟨_, neologdn_mirror, fun t => by rw [ModifierKind.modify, h2]⟩⟩
    | _ => exact hb.elim
  · obtain ⟨φ, h⟩ := modify_settles hw ht
    refine ⟨φ, fun σ => ?_⟩
    obtain ⟨f, h1, h2⟩ := h σ
    refine ⟨f, ?_, h2⟩
    rw [mirror_eq (g := f)]
    · exact h1
    · intro t
      have := modify_reverse hb σ t _ (h2 t)
      rw [h2, Outcome.ok.injEq] at this
      exact this

theorem pipeline_settles_front (ms : List ModifierKind) (hw : ∀ m ∈ ms, m.WF) (ht : .trim ∉ ms)
    (hl : ∀ x, .ligatureTranslator x ∈ ms → ∀ r ∈ x.map, OverlapsAgree r.1 r.2) :
    ∃ φ, ∀ (σs : Nat → Oracle) i, ∃ f, Settles φ (mirror f) ∧
      ∀ t, (ms.zipIdx i).foldlM (fun acc m => m.1.modify (σs m.2) acc) t = .ok (f t) := by
  induction ms with
  | nil =>
    refine ⟨fun n => n + 0, fun σs i => ⟨fun t => t, ?_, fun t => rfl⟩⟩
    rw [mirror_eq (g := fun t => t) fun t => rfl]
    exact .of_grows 0 fun a b => ⟨b, rfl, Nat.le_refl _⟩
  | cons m ms ih =>
    obtain ⟨φ, h1⟩ := modify_settles_front (hw m (by simp)) (fun e => ht (by simp [e]))
      (fun x e => hl x (by simp [e]))
    obtain ⟨ψ, h2⟩ := ih (fun m hm => hw m (by simp [hm])) (fun h => ht (by simp [h])) (fun x hx => hl x (by simp [hx]))
    refine ⟨fun n => ψ (φ n), fun σs i => ?_⟩
    obtain ⟨f, hf, ef⟩ := h1 (σs i)
    obtain ⟨g, hg, eg⟩ := h2 σs (i + 1)
    refine ⟨fun t => g (f t), ?_, fun t => ?_⟩
    · have := hf.comp hg
      have e : mirror (fun t => g (f t)) = fun t => mirror g (mirror f t) := by
        funext t; simp [mirror]
      rw [e]; exact this
    · rw [List.zipIdx_cons, List.foldlM_cons]
      simp only [ef, Outcome.ok_bind, eg]

/-! ### The property -/

/-- C90: without ligature translators and neologdn, putting something in front only adds to the result. -/
theorem C90_only_grows {c : Chanoma} (hc : ApiBuilt c) (h : ∀ m ∈ c.modifiers, ¬ m.LooksBack)
    (σs : Nat → Oracle) (debug : Bool) (text more out out' : Str)
    (h1 : c.normalize σs debug text = .ok out) (h2 : c.normalize σs debug (more ++ text) = .ok out') :
    out <:+ out' := by
  have e1 := C89_backwards hc h σs debug _ _ h1
  have e2 := C89_backwards hc h σs debug _ _ h2
  rw [List.reverse_append] at e2
  have := C88_only_grows hc h σs debug _ _ _ _ e1 e2
  rwa [List.reverse_prefix] at this

/-- C90: if no `trim` comes after a modifier that looks back and it does not matter for any ligature rule which
one of two overlapping occurrences of its key is replaced, all but a fixed number of characters at the beginning
of the result are settled, for every hash order. -/
theorem C90_settled {c : Chanoma} (hc : ApiBuilt c) (before after : List ModifierKind)
    (he : c.modifiers = before ++ after) (hb : ∀ m ∈ before, ¬ m.LooksBack) (ha : .trim ∉ after)
    (hl : ∀ x, .ligatureTranslator x ∈ after → ∀ r ∈ x.map, OverlapsAgree r.1 r.2) :
    ∃ d, ∀ (σs : Nat → Oracle) (debug : Bool) (text more out out' : Str),
      c.normalize σs debug text = .ok out → c.normalize σs debug (more ++ text) = .ok out' →
      out.drop d <:+ out' := by
  have hw := apiBuilt_wf hc
  obtain ⟨φ, hφ⟩ := pipeline_settles_front after (fun m hm => hw m (by simp [he, hm])) ha hl
  refine ⟨φ 0, fun σs debug text more out out' h1 h2 => ?_⟩
  obtain ⟨f, hf, ef⟩ := pipeline_grows before (fun m hm => hw m (by simp [he, hm])) hb σs 0
  have hr : ∀ t, f t.reverse = (f t).reverse := by
    intro t
    have := pipeline_reverse σs before hb (fun m hm => hw m (by simp [he, hm])) 0 t _ (ef t)
    rw [ef, Outcome.ok.injEq] at this
    exact this
  obtain ⟨g, hg, eg⟩ := hφ σs (0 + before.length)
  have e1 := normalize_quiet hw h1
  have e2 := normalize_quiet hw h2
  rw [he, List.zipIdx_append, List.foldlM_append, ef, Outcome.ok_bind, eg, Outcome.ok.injEq] at e1 e2
  obtain ⟨y, hy⟩ := hf text.reverse (text.reverse ++ more.reverse) (List.prefix_append _ _)
  have := hg 0 (f text.reverse) [] y (Nat.le_refl _)
  rw [List.append_nil, hy, ← List.reverse_append, hr, hr, mirror, mirror, List.reverse_reverse, List.reverse_reverse,
    e1, e2, butLast_reverse, List.reverse_prefix] at this
  exact this

/-- C90: of what neologdn makes of a text, all but the first character is settled. -/
theorem C90_neologdn (σ : Oracle) (c : Chanoma) (hc : Chanoma.neologdn σ = .ok c) (σs : Nat → Oracle) (debug : Bool)
    (text more out out' : Str) (h1 : c.normalize σs debug text = .ok out)
    (h2 : c.normalize σs debug (more ++ text) = .ok out') : out.drop 1 <:+ out' := by
  obtain ⟨c', h, hn⟩ := C16_neologdn σ
  rw [h] at hc; cases hc
  rw [hn, Outcome.ok.injEq] at h1 h2
  rw [← h1, ← h2]
  exact neologdn_keeps_front text more

/-- C90: the first character goes exactly if it is a sound mark that is joined to the character before it. -/
theorem C90_neologdn_first (σ : Oracle) (c : Chanoma) (hc : Chanoma.neologdn σ = .ok c) (σs : Nat → Oracle)
    (debug : Bool) (text more out out' : Str) (h1 : c.normalize σs debug text = .ok out)
    (h2 : c.normalize σs debug (more ++ text) = .ok out') :
    ¬ out <:+ out' ↔ ∃ u a m b v, out = m :: v ∧ voiced a m = some b ∧ out' = u ++ b :: v := by
  obtain ⟨c', h, hn⟩ := C16_neologdn σ
  rw [h] at hc; cases hc
  rw [hn, Outcome.ok.injEq] at h1 h2
  subst h1 h2
  constructor
  · intro h
    obtain ⟨r, hr, -⟩ := front_grows text.reverse more.reverse
    rw [← List.reverse_append, front_reverse, front_reverse] at hr
    have hr' : neologdnFront (more ++ text) = r.reverse ++ neologdnFront text := by
      have := congrArg List.reverse hr
      simpa using this
    obtain ⟨p, h1 | ⟨a, m, b, v, h1, h2, h3⟩, -⟩ := compose_end r.reverse (neologdnFront text)
    · rw [← hr'] at h1
      exact absurd ⟨p, h1.symm⟩ h
    · rw [← hr'] at h3
      exact ⟨p, a, m, b, v, h1, h2, h3⟩
  · rintro ⟨u, a, m, b, v, h1, h2, h3⟩ h
    rw [h1, h3] at h
    have h4 := List.suffix_of_suffix_length_le h (List.suffix_append u (b :: v)) (by simp)
    have h5 := h4.eq_of_length (by simp)
    obtain ⟨-, -, -, -, -, -, -, -, -, -, -, h6, h7, h8, -⟩ := voiced_facts h2
    rw [List.cons.injEq] at h5
    rw [h5.1] at h8
    rcases h8 with h8 | h8
    · exact h6 h8
    · exact h7 h8

/-- C90: a single rule unsettles at most as many characters at the beginning as its key has, without one, if it
does not matter which one of two overlapping occurrences is replaced. -/
theorem C90_one_rule (σ : Oracle) (k v text more : Str) (hk : k ≠ []) (h : OverlapsAgree k v) :
    (LigatureTranslator.modify ⟨[(k, v)]⟩ σ text).drop (k.length - 1) <:+
      LigatureTranslator.modify ⟨[(k, v)]⟩ σ (more ++ text) := by
  have := C88_one_rule σ k.reverse v.reverse text.reverse more.reverse (by simpa using hk)
  have h' := (C89_one_rule σ k v).2 h
  simp only [backwards] at h'
  rw [← List.reverse_append, h', h', butLast_reverse, List.reverse_prefix, List.length_reverse] at this
  exact this

/-- C90: otherwise it can happen that nothing is settled: with `aa ↦ b` one more `a` in front of a text of the
letters `a` changes what comes out of it to the end, however long the text is. -/
theorem C90_unsettled (d : Nat) : ∃ text more, ∀ σ,
    ¬ (LigatureTranslator.modify ⟨[(c! "aa", c! "b")]⟩ σ text).drop d <:+
      LigatureTranslator.modify ⟨[(c! "aa", c! "b")]⟩ σ (more ++ text) := by
  have hk : (c! "aa") ≠ [] := by decide
  have pairs : ∀ n s, strReplace (c! "aa") (c! "b") (List.replicate (2 * n) 'a' ++ s) =
      List.replicate n 'b' ++ strReplace (c! "aa") (c! "b") s := by
    intro n s
    induction n with
    | zero => rfl
    | succ n ih =>
      rw [Nat.mul_succ, List.replicate_succ, List.replicate_succ]
      have := strReplace_hit hk (c! "b") (List.replicate (2 * n) 'a' ++ s)
      rw [ih] at this
      exact this
  refine ⟨List.replicate (2 * (d + 1)) 'a', ['a'], fun σ => ?_⟩
  rw [one_rule, one_rule]
  have e1 := pairs (d + 1) []
  have e2 := pairs (d + 1) ['a']
  have e3 : ['a'] ++ List.replicate (2 * (d + 1)) 'a' = List.replicate (2 * (d + 1)) 'a' ++ ['a'] := by
    rw [List.singleton_append, ← List.replicate_succ, List.replicate_succ']
  rw [List.append_nil, strReplace_nil hk, List.append_nil] at e1
  rw [e1, e3, e2, strReplace_short hk _ _ (by decide)]
  rintro ⟨p, hp⟩
  have := congrArg List.getLast? hp
  rw [List.drop_replicate, show d + 1 - d = 1 by omega] at this
  simp at this

/-! ### Examples -/

/-- Putting something in front of `゛かばん` with neologdn: the sound mark is joined to `か`, the rest stays. -/
example : ∃ c, Chanoma.neologdn .insertion = .ok c ∧ ∀ σs debug,
    c.normalize σs debug (c! "゛かばん") = .ok (c! "゛かばん") ∧
    c.normalize σs debug (c! "あか " ++ c! "゛かばん") = .ok (c! "あがかばん") ∧
    ¬ c! "゛かばん" <:+ c! "あがかばん" := by
  obtain ⟨c, h, hn⟩ := C16_neologdn .insertion
  refine ⟨c, h, fun σs debug => ⟨?_, ?_, by decide +kernel⟩⟩ <;> rw [hn] <;> decide +kernel

/-- A pipeline that looks back, with `trim` before, and a rule whose key does not overlap itself. -/
example : ∃ c before after, ApiBuilt c ∧ c.modifiers = before ++ after ∧ (∀ m ∈ before, ¬ m.LooksBack) ∧
    .trim ∉ after ∧ (∀ x, .ligatureTranslator x ∈ after → ∀ r ∈ x.map, OverlapsAgree r.1 r.2) ∧
    ∃ m ∈ after, m.LooksBack := by
  refine ⟨⟨[.trim, .ligatureTranslator ⟨[(c! "b", c! "cc")]⟩, .characterConverter ⟨[]⟩]⟩, [.trim], _, ?_, rfl, ?_, ?_, ?_, ?_⟩
  · exact .fromConfigFile (σ := .insertion) (path := p! "/c.yaml")
      (w := .ofFiles [(p! "/c.yaml", .text [])] (fun _ => some (.mapping [(.string (c! "modifiers"),
        .mapping [(.string (c! "trim"), .null),
          (.string (c! "ligature_translator"), .mapping [(.string (c! "b"), .string (c! "cc"))])])]))) rfl
  · simp [ModifierKind.LooksBack]
  · simp
  · intro x hx r hr
    simp only [List.mem_cons, ModifierKind.ligatureTranslator.injEq, reduceCtorEq, List.not_mem_nil, or_false] at hx
    subst hx
    rw [List.mem_singleton.1 hr]
    refine C89_no_overlap _ (fun s h1 h2 h3 => ?_) _
    rcases List.prefix_cons_iff.1 h3 with h | ⟨t, h4, h5⟩
    · exact absurd h h1
    · rw [List.prefix_nil.1 h5] at h4
      exact absurd h4 h2
  · exact ⟨_, List.mem_cons_self, trivial⟩

/-- One rule: of `cab` only `c` can become part of the key `abc`, so two characters are open and `b` stays. -/
example : LigatureTranslator.modify ⟨[(c! "abc", c! "d")]⟩ .insertion (c! "cab") = c! "cab" ∧
    LigatureTranslator.modify ⟨[(c! "abc", c! "d")]⟩ .insertion (c! "xab" ++ c! "cab") = c! "xdab" ∧
    (c! "cab").drop 2 = c! "b" := by decide

end Chanoma
