import Verif.Spec.Typing
import Verif.Props.Growth
import Verif.Props.Cut
/-! # C88: what is settled while a text is still being written -/

namespace Chanoma

/-! ### All but the last characters -/

theorem butLast_prefix (d : Nat) (t : Str) : butLast d t <+: t := List.take_prefix _ _

theorem butLast_length (d : Nat) (t : Str) : (butLast d t).length = t.length - d := by
  simp only [butLast, List.length_take]; omega

theorem butLast_zero (t : Str) : butLast 0 t = t := by simp [butLast]

theorem butLast_short {d : Nat} {t : Str} (h : t.length ≤ d) : butLast d t = [] := by
  rw [butLast, Nat.sub_eq_zero_of_le h, List.take_zero]

theorem butLast_mono {d e : Nat} (h : d ≤ e) (t : Str) : butLast e t <+: butLast d t :=
  List.take_prefix_take_left (by omega)

theorem butLast_cons (d : Nat) (v o o' : Str) (h : butLast d o <+: o') : butLast d (v ++ o) <+: v ++ o' := by
  by_cases hd : d ≤ o.length
  · have e : butLast d (v ++ o) = v ++ butLast d o := by
      rw [butLast, butLast, List.length_append, Nat.add_sub_assoc hd, List.take_length_add_append]
    rw [e]
    exact (List.prefix_append_right_inj v).2 h
  · refine (List.prefix_of_prefix_length_le (butLast_prefix d (v ++ o)) (List.prefix_append v o) ?_).trans
      (List.prefix_append v o')
    rw [butLast_length, List.length_append]; omega

theorem butLast_common {d : Nat} {p o o' : Str} (h1 : p <+: o) (h2 : p <+: o') (h3 : o.length ≤ p.length + d) :
    butLast d o <+: o' :=
  (List.prefix_of_prefix_length_le (butLast_prefix d o) h1 (by rw [butLast_length]; omega)).trans h2

/-- The text without its last `d` characters, and these. -/
theorem butLast_split (d : Nat) (t : Str) : ∃ x, t = butLast d t ++ x ∧ x.length ≤ d := by
  refine ⟨t.drop (t.length - d), (List.take_append_drop _ _).symm, ?_⟩
  rw [List.length_drop]; omega

/-! ### The modifiers that do not look back -/

theorem squeeze_grows (c : Char) (a b : Str) : ∃ r, squeeze c (a ++ b) = squeeze c a ++ r ∧ r.length ≤ b.length := by
  have len : ∀ b : Str, (squeeze c b).length ≤ b.length := by
    intro b
    induction b with
    | nil => exact Nat.le_refl _
    | cons x b ih => rw [squeeze]; split <;> simp <;> omega
  by_cases h : a.getLast? = some c ∧ b.head? = some c
  · refine ⟨_, squeeze_join h.1 h.2, ?_⟩
    have := len b
    rw [List.length_tail]; omega
  · exact ⟨_, squeeze_append c a b h, len b⟩

theorem dGo_len (t : Str) : (dGo false false t).length ≤ t.length := by
  obtain ⟨o, h1, h2⟩ := C59_only_delete .dottedSpaceEliminator (.inr (.inl rfl)) .insertion t
  rw [ModifierKind.modify, dotted_eq_dGo, Outcome.ok.injEq] at h1
  rw [h1]; exact h2.length_le

theorem dotted_grows (a b : Str) : ∃ r, dottedModify (a ++ b) = dottedModify a ++ r ∧ r.length ≤ b.length + 1 := by
  refine ⟨_, by rw [dotted_eq_dGo, dotted_eq_dGo]; exact spaces_append a b, ?_⟩
  have := dGo_len b
  rw [List.length_append]
  split <;> simp <;> omega

theorem trim_grows (a b : Str) : trimModify a <+: trimModify (a ++ b) := by
  obtain ⟨i, j, ha, ha1, ha2⟩ := trim_eq a
  obtain ⟨k, l, hb, hb1, hb2⟩ := trim_eq b
  obtain ⟨m, n, hc, hc1, hc2⟩ := trim_eq (a ++ b)
  by_cases ea : trimModify a = []
  · rw [ea]; exact List.nil_prefix
  by_cases eb : trimModify b = []
  · rw [(trim_append_iff a b).2, eb, List.append_nil]
    · exact List.prefix_refl _
    · refine .inr (.inl fun c hm => ?_)
      rw [hb, eb] at hm
      simp only [List.append_nil, List.mem_append] at hm
      rcases hm with hm | hm <;> exact List.eq_of_mem_replicate hm
  · have e : trimModify (a ++ b) = trimModify a ++ (List.replicate (j + k) ' ' ++ trimModify b) := by
      refine trim_unique (a := m) (b := n) (a' := i) (b' := l) ?_ hc1 hc2 ?_ ?_
      · rw [← hc]
        conv => lhs; rw [ha, hb]
        simp only [List.append_assoc, ← List.replicate_append_replicate]
      · rw [head_app ea]; exact ha1
      · rw [← List.append_assoc, getLast_app eb]; exact hb2
    rw [e]; exact List.prefix_append _ _

theorem modify_grows {m : ModifierKind} (hm : ¬ m.LooksBack) (σ : Oracle) {t t' o o' : Str} (ht : t <+: t')
    (h : m.modify σ t = .ok o) (h' : m.modify σ t' = .ok o') : o <+: o' := by
  obtain ⟨b, rfl⟩ := ht
  cases m with
  | ligatureTranslator x => exact absurd trivial hm
  | neologdn x => exact absurd trivial hm
  | characterConverter x =>
    rw [ModifierKind.modify, modify_eq, Outcome.ok.injEq] at h h'
    rw [← h, ← h', substitute, substitute, List.map_append]; exact List.prefix_append _ _
  | characterEliminator x =>
    rw [ModifierKind.modify, eliminator_eq, Outcome.ok.injEq] at h h'
    rw [← h, ← h', List.filter_append]; exact List.prefix_append _ _
  | consecutiveCharacterReducer x =>
    rw [ModifierKind.modify, reducer_eq, Outcome.ok.injEq] at h h'
    obtain ⟨r, e, -⟩ := squeeze_grows x.c t b
    rw [← h, ← h', e]; exact List.prefix_append _ _
  | dottedSpaceEliminator =>
    rw [ModifierKind.modify, Outcome.ok.injEq] at h h'
    obtain ⟨r, e, -⟩ := dotted_grows t b
    rw [← h, ← h', e]; exact List.prefix_append _ _
  | trim =>
    rw [ModifierKind.modify, Outcome.ok.injEq] at h h'
    rw [← h, ← h']; exact trim_grows t b

/-! ### The modifiers that look back -/

/-- `f` keeps all but `φ n` characters if the text is changed after all but its last `n` characters. -/
def Settles (φ : Nat → Nat) (f : Str → Str) : Prop :=
  ∀ n u x y, x.length ≤ n → butLast (φ n) (f (u ++ x)) <+: f (u ++ y)

theorem Settles.comp {φ ψ : Nat → Nat} {f g : Str → Str} (hf : Settles φ f) (hg : Settles ψ g) :
    Settles (fun n => ψ (φ n)) (fun t => g (f t)) := by
  intro n u x y hx
  obtain ⟨x', e, hx'⟩ := butLast_split (φ n) (f (u ++ x))
  obtain ⟨y', hy'⟩ := hf n u x y hx
  have := hg (φ n) (butLast (φ n) (f (u ++ x))) x' y' hx'
  rwa [← e, hy'] at this

theorem Settles.mono {φ ψ : Nat → Nat} {f : Str → Str} (hf : Settles φ f) (h : ∀ n, φ n ≤ ψ n) : Settles ψ f :=
  fun n u x y hx => (butLast_mono (h n) _).trans (hf n u x y hx)

theorem rule_keeps {k : Str} (hk : k ≠ []) (v x y : Str) (D : Nat)
    (hD : ∀ u : Str, u.length < k.length → (strReplace k v (u ++ x)).length ≤ D) (u : Str) :
    butLast D (strReplace k v (u ++ x)) <+: strReplace k v (u ++ y) := by
  suffices ∀ n, ∀ u : Str, u.length ≤ n → butLast D (strReplace k v (u ++ x)) <+: strReplace k v (u ++ y) from
    this u.length u (Nat.le_refl _)
  intro n
  induction n with
  | zero =>
    intro u hu
    rw [butLast_short (hD u (by have := List.length_pos_iff.2 hk; omega))]; exact List.nil_prefix
  | succ n ih =>
    intro u hu
    by_cases hl : u.length < k.length
    · rw [butLast_short (hD u hl)]; exact List.nil_prefix
    · by_cases hp : k <+: u
      · obtain ⟨t, rfl⟩ := hp
        have := List.length_pos_iff.2 hk
        rw [List.append_assoc, List.append_assoc, strReplace_hit hk, strReplace_hit hk]
        exact butLast_cons D v _ _ (ih t (by simp at hu; omega))
      · cases u with
        | nil => simp at hl; exact absurd hl hk
        | cons c t =>
          have no : ∀ z, ¬ k <+: c :: (t ++ z) := fun z hz =>
            hp (List.prefix_of_prefix_length_le hz (List.prefix_append (c :: t) z) (by omega))
          rw [List.cons_append, List.cons_append, strReplace_keep hk v (no x), strReplace_keep hk v (no y)]
          exact butLast_cons D [c] _ _ (ih t (by simpa using hu))

theorem rule_len (k v t : Str) : (strReplace k v t).length ≤ (t.length + 1) * (v.length + 1) := by
  have h := rule_growth (k, v) t
  by_cases hk : k = []
  · simp only [ruleFactor, if_pos hk, Nat.one_mul] at h
    rw [Nat.mul_comm]; omega
  · simp only [ruleFactor, if_neg hk] at h
    have h0 := List.length_pos_iff.2 hk
    have : max k.length v.length ≤ k.length * (v.length + 1) := by
      refine Nat.max_le.2 ⟨Nat.le_mul_of_pos_right _ (by omega), ?_⟩
      exact Nat.le_trans (Nat.le_succ _) (Nat.le_mul_of_pos_left _ h0)
    have h2 := Nat.le_trans h (Nat.mul_le_mul_right (t.length + 1) this)
    rw [Nat.mul_assoc] at h2
    have := Nat.le_of_mul_le_mul_left h2 h0
    rw [Nat.mul_comm]; omega

theorem rule_settles (k v : Str) (B : Nat) (hB : k.length + v.length ≤ B) :
    Settles (fun n => (n + B + 1) * (B + 1)) (strReplace k v) := by
  intro n u x y hx
  have big : ∀ t : Str, t.length ≤ n + B → (strReplace k v t).length ≤ (n + B + 1) * (B + 1) := fun t ht =>
    Nat.le_trans (rule_len k v t) (Nat.mul_le_mul (by omega) (by omega))
  by_cases hk : k = []
  · subst hk
    simp only [strReplace, List.flatMap_append, ← List.append_assoc]
    refine butLast_common (List.prefix_append _ _) (List.prefix_append _ _) ?_
    rw [List.length_append]
    have := big x (by omega)
    simp only [strReplace, List.length_append] at this
    omega
  · exact rule_keeps hk v x y _ (fun w hw => big _ (by rw [List.length_append]; omega)) u

/-- The modulus of a list of rules, the same for all orders. -/
def rulesModulus (B : Nat) : Nat → Nat → Nat
  | 0, n => n
  | m + 1, n => rulesModulus B m ((n + B + 1) * (B + 1))

theorem rules_settle (B : Nat) (l : List (Str × Str)) (h : ∀ r ∈ l, r.1.length + r.2.length ≤ B) :
    Settles (rulesModulus B l.length) (fun t => l.foldl (fun t e => strReplace e.1 e.2 t) t) := by
  induction l with
  | nil =>
    intro n u x y hx
    refine butLast_common (List.prefix_append u x) (List.prefix_append u y) ?_
    simpa [rulesModulus] using hx
  | cons e l ih => exact (rule_settles e.1 e.2 B (h e (by simp))).comp (ih fun r hr => h r (by simp [hr]))

theorem rules_bounded (l : List (Str × Str)) : ∃ B, ∀ r ∈ l, r.1.length + r.2.length ≤ B := by
  induction l with
  | nil => exact ⟨0, by simp⟩
  | cons e l ih =>
    obtain ⟨B, hB⟩ := ih
    refine ⟨max B (e.1.length + e.2.length), ?_⟩
    intro r hr
    rcases List.mem_cons.1 hr with rfl | hr
    · exact Nat.le_max_right _ _
    · exact Nat.le_trans (hB r hr) (Nat.le_max_left _ _)

theorem compose_settles : Settles (fun n => n + 1) composeMarks := by
  intro n u x y hx
  suffices ∀ u : Str, butLast (n + 1) (composeMarks (u ++ x)) <+: composeMarks (u ++ y) from this u
  intro u
  have few : ∀ u : Str, u.length ≤ 1 → butLast (n + 1) (composeMarks (u ++ x)) <+: composeMarks (u ++ y) := by
    intro u hu
    rw [butLast_short]
    · exact List.nil_prefix
    · have := (compose_len (u ++ x)).1
      rw [List.length_append] at this
      omega
  induction u using compose_induction with
  | h0 => exact few [] (by simp)
  | h1 a => exact few [a] (by simp)
  | h2 a m t b h ih =>
    simp only [List.cons_append, compose_hit h]
    exact butLast_cons _ [b] _ _ ih
  | h3 a m t h ih =>
    simp only [List.cons_append, compose_keep h] at ih ⊢
    exact butLast_cons _ [a] _ _ ih

theorem Settles.of_grows {f : Str → Str} (j : Nat) (h : ∀ a b, ∃ r, f (a ++ b) = f a ++ r ∧ r.length ≤ b.length + j) :
    Settles (fun n => n + j) f := by
  intro n u x y hx
  obtain ⟨r, h1, h2⟩ := h u x
  obtain ⟨s, h3, -⟩ := h u y
  rw [h1, h3]
  refine butLast_common (List.prefix_append _ _) (List.prefix_append _ _) ?_
  show _ ≤ _ + (n + j)
  rw [List.length_append]; omega

/-- The part of neologdn before the sound marks. -/
def neologdnFront (t : Str) : Str := (spaceRule (squeeze 'ー' (t.map neologdnFold))).filter (· ∉ tildeChars)

theorem front_grows (a b : Str) : ∃ r, neologdnFront (a ++ b) = neologdnFront a ++ r ∧ r.length ≤ b.length + 1 := by
  obtain ⟨r, h1, h2⟩ := squeeze_grows 'ー' (a.map neologdnFold) (b.map neologdnFold)
  obtain ⟨s, h3, h4⟩ := dotted_grows (squeeze 'ー' (a.map neologdnFold)) r
  refine ⟨s.filter (· ∉ tildeChars), ?_, ?_⟩
  · rw [neologdnFront, neologdnFront, List.map_append, h1, ← dotted_eq, h3, dotted_eq, List.filter_append]
  · have := List.length_filter_le (· ∉ tildeChars) s
    rw [List.length_map] at h2
    omega

theorem neologdn_settles : Settles (fun n => n + 1 + 1) neologdnSpec :=
  (Settles.of_grows 1 front_grows).comp compose_settles

theorem neologdn_keeps (t more : Str) : butLast 1 (neologdnSpec t) <+: neologdnSpec (t ++ more) := by
  obtain ⟨r, h, -⟩ := front_grows t more
  have := compose_settles 0 (neologdnFront t) [] r (Nat.le_refl _)
  rw [List.append_nil, ← h] at this
  exact this

theorem modify_settles {m : ModifierKind} (hw : m.WF) (ht : m ≠ .trim) : ∃ φ, ∀ σ, ∃ f, Settles φ f ∧
    ∀ t, m.modify σ t = .ok (f t) := by
  cases m with
  | trim => exact absurd rfl ht
  | characterConverter x =>
    refine ⟨fun n => n + 0, fun σ => ⟨_, .of_grows 0 ?_, fun t => by rw [ModifierKind.modify, modify_eq]⟩⟩
    intro a b
    exact ⟨_, by rw [substitute, List.map_append]; rfl, by simp⟩
  | characterEliminator x =>
    refine ⟨fun n => n + 0, fun σ => ⟨_, .of_grows 0 ?_, fun t => by rw [ModifierKind.modify, eliminator_eq]⟩⟩
    intro a b
    exact ⟨_, List.filter_append a b, List.length_filter_le _ _⟩
  | consecutiveCharacterReducer x =>
    exact ⟨fun n => n + 0, fun σ => ⟨_, .of_grows 0 (squeeze_grows x.c), fun t => by
      rw [ModifierKind.modify, reducer_eq]⟩⟩
  | dottedSpaceEliminator =>
    exact ⟨fun n => n + 1, fun σ => ⟨_, .of_grows 1 dotted_grows, fun t => rfl⟩⟩
  | ligatureTranslator x =>
    obtain ⟨B, hB⟩ := rules_bounded x.map
    refine ⟨rulesModulus B x.map.length, fun σ => ⟨_, ?_, fun t => rfl⟩⟩
    have hp := σ.iter_perm x.map
    rw [← hp.length_eq]
    exact rules_settle B _ fun r hr => hB r (hp.mem_iff.1 hr)
  | neologdn x =>
    obtain ⟨τ, hτ⟩ := hw
    obtain ⟨y, h1, -, h2, -⟩ := neologdn_new τ
    rw [h1] at hτ; cases hτ
    exact ⟨_, fun σ => ⟨_, neologdn_settles, fun t => by rw [ModifierKind.modify, h2]⟩⟩

theorem pipeline_settles (ms : List ModifierKind) (hw : ∀ m ∈ ms, m.WF) (ht : .trim ∉ ms) :
    ∃ φ, ∀ (σs : Nat → Oracle) i, ∃ f, Settles φ f ∧
      ∀ t, (ms.zipIdx i).foldlM (fun acc m => m.1.modify (σs m.2) acc) t = .ok (f t) := by
  induction ms with
  | nil =>
    exact ⟨fun n => n + 0, fun σs i => ⟨fun t => t, .of_grows 0 fun a b => ⟨b, rfl, Nat.le_refl _⟩, fun t => rfl⟩⟩
  | cons m ms ih =>
    obtain ⟨φ, h1⟩ := modify_settles (hw m (by simp)) (fun e => ht (by simp [e]))
    obtain ⟨ψ, h2⟩ := ih (fun m hm => hw m (by simp [hm])) (fun h => ht (by simp [h]))
    refine ⟨fun n => ψ (φ n), fun σs i => ?_⟩
    obtain ⟨f, hf, ef⟩ := h1 (σs i)
    obtain ⟨g, hg, eg⟩ := h2 σs (i + 1)
    refine ⟨_, hf.comp hg, fun t => ?_⟩
    rw [List.zipIdx_cons, List.foldlM_cons]
    simp only [ef, Outcome.ok_bind, eg]

theorem pipeline_grows (ms : List ModifierKind) (hw : ∀ m ∈ ms, m.WF) (hb : ∀ m ∈ ms, ¬ m.LooksBack)
    (σs : Nat → Oracle) (i : Nat) : ∃ f : Str → Str, (∀ t t', t <+: t' → f t <+: f t') ∧
      ∀ t, (ms.zipIdx i).foldlM (fun acc m => m.1.modify (σs m.2) acc) t = .ok (f t) := by
  induction ms generalizing i with
  | nil => exact ⟨fun t => t, fun _ _ h => h, fun t => rfl⟩
  | cons m ms ih =>
    obtain ⟨g, hg, eg⟩ := ih (fun m hm => hw m (by simp [hm])) (fun m hm => hb m (by simp [hm])) (i + 1)
    have ex : ∀ t, ∃ o, m.modify (σs i) t = .ok o := fun t => by
      obtain ⟨o, ps, h1, -⟩ := wf_agree m (hw m (by simp)) (σs i) t
      exact ⟨o, h1⟩
    refine ⟨fun t => g (ex t).choose, fun t t' h => hg _ _ ?_, fun t => ?_⟩
    · exact modify_grows (hb m (by simp)) (σs i) h (ex t).choose_spec (ex t').choose_spec
    · rw [List.zipIdx_cons, List.foldlM_cons, (ex t).choose_spec, Outcome.ok_bind, eg]

theorem normalize_quiet {c : Chanoma} (hw : ∀ m ∈ c.modifiers, m.WF) {σs : Nat → Oracle} {debug : Bool}
    {text out : Str} (h : c.normalize σs debug text = .ok out) :
    c.modifiers.zipIdx.foldlM (fun acc m => m.1.modify (σs m.2) acc) text = .ok out := by
  cases debug with
  | false => exact h
  | true =>
    by_cases hne : c.modifiers = []
    · rw [normalize_debug_nil hne] at h; cases h
    · rw [normalize_wf hw hne σs true] at h; exact h

/-! ### The property -/

/-- C88: without ligature translators and neologdn, writing more only adds to the result. -/
theorem C88_only_grows {c : Chanoma} (hc : ApiBuilt c) (h : ∀ m ∈ c.modifiers, ¬ m.LooksBack)
    (σs : Nat → Oracle) (debug : Bool) (text more out out' : Str)
    (h1 : c.normalize σs debug text = .ok out) (h2 : c.normalize σs debug (text ++ more) = .ok out') :
    out <+: out' := by
  have hw := apiBuilt_wf hc
  obtain ⟨f, hf, ef⟩ := pipeline_grows c.modifiers hw h σs 0
  have e1 := normalize_quiet hw h1
  have e2 := normalize_quiet hw h2
  rw [ef, Outcome.ok.injEq] at e1 e2
  rw [← e1, ← e2]
  exact hf _ _ (List.prefix_append _ _)

/-- C88: if no `trim` comes after a modifier that looks back, all but a fixed number of characters of the
result are settled: they stay whatever is written after the text, for every hash order. -/
theorem C88_settled {c : Chanoma} (hc : ApiBuilt c) (before after : List ModifierKind)
    (he : c.modifiers = before ++ after) (hb : ∀ m ∈ before, ¬ m.LooksBack) (ha : .trim ∉ after) :
    ∃ d, ∀ (σs : Nat → Oracle) (debug : Bool) (text more out out' : Str),
      c.normalize σs debug text = .ok out → c.normalize σs debug (text ++ more) = .ok out' →
      butLast d out <+: out' := by
  have hw := apiBuilt_wf hc
  obtain ⟨φ, hφ⟩ := pipeline_settles after (fun m hm => hw m (by simp [he, hm])) ha
  refine ⟨φ 0, fun σs debug text more out out' h1 h2 => ?_⟩
  obtain ⟨f, hf, ef⟩ := pipeline_grows before (fun m hm => hw m (by simp [he, hm])) hb σs 0
  obtain ⟨g, hg, eg⟩ := hφ σs (0 + before.length)
  have e1 := normalize_quiet hw h1
  have e2 := normalize_quiet hw h2
  rw [he, List.zipIdx_append, List.foldlM_append, ef, Outcome.ok_bind, eg, Outcome.ok.injEq] at e1 e2
  obtain ⟨y, hy⟩ := hf text (text ++ more) (List.prefix_append _ _)
  have := hg 0 (f text) [] y (Nat.le_refl _)
  rw [List.append_nil, hy, e1, e2] at this
  exact this

/-- C88: of what neologdn makes of a text, all but the last character is settled. -/
theorem C88_neologdn (σ : Oracle) (c : Chanoma) (hc : Chanoma.neologdn σ = .ok c) (σs : Nat → Oracle) (debug : Bool)
    (text more out out' : Str) (h1 : c.normalize σs debug text = .ok out)
    (h2 : c.normalize σs debug (text ++ more) = .ok out') : butLast 1 out <+: out' := by
  obtain ⟨c', h, hn⟩ := C16_neologdn σ
  rw [h] at hc; cases hc
  rw [hn, Outcome.ok.injEq] at h1 h2
  rw [← h1, ← h2]
  exact neologdn_keeps text more

theorem voiced_ne {m b : Char} : voiced b m ≠ some b := by
  intro h
  obtain ⟨-, -, -, -, -, -, -, -, -, -, -, -, -, h1, h2, h3⟩ := voiced_facts h
  rcases h1 with rfl | rfl
  · rw [h2] at h; cases h
  · rw [h3] at h; cases h

theorem compose_last (w r : Str) : composeMarks w <+: composeMarks (w ++ r) ∨
    ∃ u a m b v, composeMarks w = u ++ [a] ∧ voiced a m = some b ∧ composeMarks (w ++ r) = u ++ b :: v := by
  have step : ∀ (c : Char) (o o' : Str), (o <+: o' ∨
      ∃ u a m b v, o = u ++ [a] ∧ voiced a m = some b ∧ o' = u ++ b :: v) → (c :: o <+: c :: o' ∨
      ∃ u a m b v, c :: o = u ++ [a] ∧ voiced a m = some b ∧ c :: o' = u ++ b :: v) := by
    rintro c o o' (h | ⟨u, a, m, b, v, h1, h2, h3⟩)
    · exact .inl (List.cons_prefix_cons.2 ⟨rfl, h⟩)
    · exact .inr ⟨c :: u, a, m, b, v, by rw [h1]; rfl, h2, by rw [h3]; rfl⟩
  induction w using compose_induction with
  | h0 => exact .inl List.nil_prefix
  | h1 a =>
    cases r with
    | nil => exact .inl (List.prefix_refl _)
    | cons m r =>
      cases hv : voiced a m with
      | none =>
        rw [List.singleton_append, compose_keep hv, compose_one]
        exact .inl (List.cons_prefix_cons.2 ⟨rfl, List.nil_prefix⟩)
      | some b =>
        rw [List.singleton_append, compose_hit hv, compose_one]
        exact .inr ⟨[], a, m, b, _, rfl, hv, rfl⟩
  | h2 a m t b h ih =>
    rw [List.cons_append, List.cons_append, compose_hit h, compose_hit h]
    exact step b _ _ ih
  | h3 a m t h ih =>
    rw [List.cons_append, List.cons_append, compose_keep h, compose_keep h]
    exact step a _ _ ih

/-- C88: the last character changes exactly if it becomes a voiced kana. -/
theorem C88_neologdn_last (σ : Oracle) (c : Chanoma) (hc : Chanoma.neologdn σ = .ok c) (σs : Nat → Oracle)
    (debug : Bool) (text more out out' : Str) (h1 : c.normalize σs debug text = .ok out)
    (h2 : c.normalize σs debug (text ++ more) = .ok out') :
    ¬ out <+: out' ↔ ∃ u a m b v, out = u ++ [a] ∧ voiced a m = some b ∧ out' = u ++ b :: v := by
  obtain ⟨c', h, hn⟩ := C16_neologdn σ
  rw [h] at hc; cases hc
  rw [hn, Outcome.ok.injEq] at h1 h2
  subst h1 h2
  constructor
  · intro h
    obtain ⟨r, hr, -⟩ := front_grows text more
    have := compose_last (neologdnFront text) r
    rw [← hr] at this
    exact this.resolve_left h
  · rintro ⟨u, a, m, b, v, h1, h2, h3⟩ h
    rw [h1, h3, List.prefix_append_right_inj, List.cons_prefix_cons] at h
    rw [h.1] at h2
    exact voiced_ne h2

/-- C88: a single rule with a key of `n` characters unsettles at most the last `n - 1`. -/
theorem C88_one_rule (σ : Oracle) (k v text more : Str) (hk : k ≠ []) :
    butLast (k.length - 1) (LigatureTranslator.modify ⟨[(k, v)]⟩ σ text) <+:
      LigatureTranslator.modify ⟨[(k, v)]⟩ σ (text ++ more) := by
  rw [LigatureTranslator.modify, LigatureTranslator.modify, List.perm_singleton.1 (σ.iter_perm [(k, v)])]
  show butLast _ (strReplace k v text) <+: strReplace k v (text ++ more)
  have := rule_keeps hk v [] more (k.length - 1) (fun u hu => by
    rw [List.append_nil, strReplace_short hk v u hu]; omega) text
  rwa [List.append_nil] at this

/-- C88: all `n - 1` of them can go: the key without its last character is left alone, and is replaced as a whole
when that character is written, unless the value begins like the key. -/
theorem C88_one_rule_sharp (σ : Oracle) (k v : Str) (a : Char) (d : Nat) (hv : v.head? ≠ (k ++ [a]).head?)
    (hd : d < k.length) :
    ¬ butLast d (LigatureTranslator.modify ⟨[(k ++ [a], v)]⟩ σ k) <+:
      LigatureTranslator.modify ⟨[(k ++ [a], v)]⟩ σ (k ++ [a]) := by
  rw [LigatureTranslator.modify, LigatureTranslator.modify, List.perm_singleton.1 (σ.iter_perm [(k ++ [a], v)])]
  show ¬ butLast d (strReplace (k ++ [a]) v k) <+: strReplace (k ++ [a]) v (k ++ [a])
  have h1 := strReplace_hit (k := k ++ [a]) (by simp) v []
  rw [List.append_nil, strReplace_nil (by simp), List.append_nil] at h1
  rw [strReplace_short (by simp) v k (by simp), h1]
  cases k with
  | nil => simp at hd
  | cons b k =>
    rw [butLast, List.length_cons, Nat.succ_sub (by simp at hd; omega), List.take_succ_cons]
    intro h
    cases v with
    | nil => simp at h
    | cons e v =>
      rw [List.cons_prefix_cons] at h
      exact hv (by simp [h.1])

/-! ### A pipeline in which nothing is settled -/

/-- The rule that deletes `bc`, then `trim`. -/
def retracting : Chanoma := ⟨[.ligatureTranslator ⟨[(c! "bc", [])]⟩, .trim, .characterConverter ⟨[]⟩]⟩

theorem retracting_built : ApiBuilt retracting :=
  .fromConfigFile (σ := .insertion) (path := p! "/c.yaml")
    (w := .ofFiles [(p! "/c.yaml", .text [])] (fun _ => some (.mapping [(.string (c! "modifiers"),
      .mapping [(.string (c! "ligature_translator"), .mapping [(.string (c! "bc"), .string [])]),
        (.string (c! "trim"), .null)])]))) rfl

theorem retracting_run (σs : Nat → Oracle) (debug : Bool) (t : Str) :
    retracting.normalize σs debug t = .ok (trimModify (strReplace (c! "bc") [] t)) := by
  rw [normalize_wf (apiBuilt_wf retracting_built) (by simp [retracting])]
  have e := List.perm_singleton.1 ((σs 0).iter_perm [(c! "bc", ([] : Str))])
  simp only [retracting, Chanoma.normalize, ModifierKind.modify, LigatureTranslator.modify, modify_eq, substitute,
    HMap.get?, List.zipIdx_cons, List.zipIdx_nil, List.foldlM_cons, List.foldlM_nil, Bool.not_false, if_true,
    Outcome.ok_bind, e]
  simp

/-- C88: with a `trim` after a ligature translator it can happen that nothing is settled: however many characters
of the result are given up, there are texts for which the rest changes. -/
theorem C88_unsettled : ApiBuilt retracting ∧ ∀ d, ∃ text more, ∀ σs debug, ∃ out out',
    retracting.normalize σs debug text = .ok out ∧ retracting.normalize σs debug (text ++ more) = .ok out' ∧
    ¬ butLast d out <+: out' := by
  refine ⟨retracting_built, fun d => ⟨'a' :: (List.replicate d ' ' ++ ['b']), ['c'], fun σs debug => ?_⟩⟩
  refine ⟨_, _, retracting_run σs debug _, retracting_run σs debug _, ?_⟩
  have hk : (c! "bc") ≠ [] := by decide
  have spaces : ∀ d s, strReplace (c! "bc") [] (List.replicate d ' ' ++ s) =
      List.replicate d ' ' ++ strReplace (c! "bc") [] s := by
    intro d s
    induction d with
    | zero => rfl
    | succ d ih =>
      rw [List.replicate_succ, List.cons_append, strReplace_keep hk [] (fun h => by
        have := (List.cons_prefix_cons.1 h).1
        exact absurd this (by decide)), ih, List.cons_append]
  have first : ∀ s, strReplace (c! "bc") [] ('a' :: s) = 'a' :: strReplace (c! "bc") [] s := fun s =>
    strReplace_keep hk [] fun h => absurd (List.cons_prefix_cons.1 h).1 (by decide)
  have e1 : strReplace (c! "bc") [] ('a' :: (List.replicate d ' ' ++ ['b'])) = 'a' :: (List.replicate d ' ' ++ ['b']) := by
    rw [first, spaces]
    exact congrArg (fun s => 'a' :: (List.replicate d ' ' ++ s)) (by decide)
  have e2 : strReplace (c! "bc") [] ('a' :: (List.replicate d ' ' ++ ['b']) ++ ['c']) = 'a' :: List.replicate d ' ' := by
    rw [List.cons_append, List.append_assoc, first, spaces, ← List.append_nil (List.replicate d ' ')]
    rw [List.append_nil]
    refine (congrArg (fun s => 'a' :: (List.replicate d ' ' ++ s))
      (show strReplace (c! "bc") [] (['b'] ++ ['c']) = [] by decide)).trans ?_
    show 'a' :: (List.replicate d ' ' ++ []) = _
    rw [List.append_nil]
  rw [e1, e2]
  have t1 : trimModify ('a' :: (List.replicate d ' ' ++ ['b'])) = 'a' :: (List.replicate d ' ' ++ ['b']) := by
    obtain ⟨i, j, h1, h2, h3⟩ := trim_eq ('a' :: (List.replicate d ' ' ++ ['b']))
    refine trim_unique (a := i) (b := j) (a' := 0) (b' := 0) ?_ h2 h3 (by simp) ?_
    · rw [← h1]; simp
    · rw [← List.cons_append, List.getLast?_append]; simp
  have t2 : trimModify ('a' :: List.replicate d ' ') = ['a'] := by
    obtain ⟨i, j, h1, h2, h3⟩ := trim_eq ('a' :: List.replicate d ' ')
    exact trim_unique (a := i) (b := j) (a' := 0) (b' := d) (by rw [← h1]; rfl) h2 h3 (by simp) (by simp)
  rw [t1, t2]
  intro h
  have := h.length_le
  rw [butLast_length] at this
  simp at this
  omega

/-! ### Examples -/

/-- Going on to write after `かばんか` with neologdn: `かばん` stays, the last `か` becomes `が`. -/
example : ∃ c, Chanoma.neologdn .insertion = .ok c ∧ ∀ σs debug,
    c.normalize σs debug (c! "かばんか") = .ok (c! "かばんか") ∧
    c.normalize σs debug (c! "かばんか" ++ c! "゛  き") = .ok (c! "かばんがき") ∧
    butLast 1 (c! "かばんか") = c! "かばん" ∧ ¬ c! "かばんか" <+: c! "かばんがき" := by
  obtain ⟨c, h, hn⟩ := C16_neologdn .insertion
  refine ⟨c, h, fun σs debug => ⟨?_, ?_, by decide +kernel, by decide +kernel⟩⟩ <;> rw [hn] <;> decide +kernel

/-- A pipeline that does not look back: the dotted-space rule, then `trim`. -/
example : ∃ c, ApiBuilt c ∧ (∀ m ∈ c.modifiers, ¬ m.LooksBack) ∧ ∀ σs debug,
    c.normalize σs debug (c! " a ") = .ok (c! "a") ∧ c.normalize σs debug (c! " a " ++ c! " b ") = .ok (c! "a b") := by
  refine ⟨⟨[.dottedSpaceEliminator, .trim, .characterConverter ⟨[]⟩]⟩, ?_, ?_, ?_⟩
  · exact .fromConfigFile (σ := .insertion) (path := p! "/c.yaml")
      (w := .ofFiles [(p! "/c.yaml", .text [])] (fun _ => some (.mapping [(.string (c! "modifiers"),
        .mapping [(.string (c! "dotted_space_eliminator"), .null), (.string (c! "trim"), .null)])]))) rfl
  · simp [ModifierKind.LooksBack]
  · intro σs debug
    constructor <;> rw [normalize_wf (by simp [ModifierKind.WF]) (by simp)] <;>
      simp only [Chanoma.normalize, ModifierKind.modify, modify_eq, substitute, HMap.get?, List.zipIdx_cons,
        List.zipIdx_nil, List.foldlM_cons, List.foldlM_nil, Bool.not_false, if_true, Outcome.ok_bind] <;>
      decide +kernel

/-- A pipeline that looks back, with `trim` before: `trim`, then a ligature. -/
example : ∃ c before after, ApiBuilt c ∧ c.modifiers = before ++ after ∧ (∀ m ∈ before, ¬ m.LooksBack) ∧
    .trim ∉ after ∧ ∃ m ∈ after, m.LooksBack := by
  refine ⟨⟨[.trim, .ligatureTranslator ⟨[(c! "bc", [])]⟩, .characterConverter ⟨[]⟩]⟩, [.trim], _, ?_, rfl, ?_, ?_, ?_⟩
  · exact .fromConfigFile (σ := .insertion) (path := p! "/c.yaml")
      (w := .ofFiles [(p! "/c.yaml", .text [])] (fun _ => some (.mapping [(.string (c! "modifiers"),
        .mapping [(.string (c! "trim"), .null),
          (.string (c! "ligature_translator"), .mapping [(.string (c! "bc"), .string [])])])]))) rfl
  · simp [ModifierKind.LooksBack]
  · simp
  · exact ⟨_, List.mem_cons_self, trivial⟩

/-- One rule: of `xab` the last two characters are open while the key is `abc`. -/
example : LigatureTranslator.modify ⟨[(c! "abc", c! "d")]⟩ .insertion (c! "xab") = c! "xab" ∧
    LigatureTranslator.modify ⟨[(c! "abc", c! "d")]⟩ .insertion (c! "xab" ++ c! "c") = c! "xd" ∧
    butLast 2 (c! "xab") = c! "x" := by decide

end Chanoma
