import Verif.Props.Compare
import Verif.Props.Finite
import Verif.Spec.Growth
/-! # C81: how much longer a text can get -/

namespace Chanoma

theorem rule_growth (r : Str × Str) (t : Str) :
    (ruleFactor r).2 * ((strReplace r.1 r.2 t).length + 1) ≤ (ruleFactor r).1 * (t.length + 1) := by
  obtain ⟨k, v⟩ := r
  by_cases hk : k = []
  · subst hk
    simp only [ruleFactor, if_true, strReplace, List.length_append, Nat.one_mul]
    have : ∀ t : Str, (t.flatMap fun c => c :: v).length = t.length * (v.length + 1) := by
      intro t
      induction t with
      | nil => simp
      | cons c t ih => rw [List.flatMap_cons, List.length_append, ih, List.length_cons, List.length_cons, Nat.succ_mul]; omega
    rw [this, Nat.mul_comm, Nat.mul_add]
    omega
  · have h := strReplace_replaced hk v t
    simp only [ruleFactor, if_neg hk]
    generalize strReplace k v t = o at h
    induction h with
    | nil => simp only [List.length_nil, Nat.zero_add, Nat.mul_one]; exact Nat.le_max_left _ _
    | hit h1 _ _ ih =>
      simp only [List.mem_singleton, Prod.mk.injEq] at h1
      rw [h1.1, h1.2, List.length_append, List.length_append, Nat.add_assoc, Nat.add_assoc]
      refine Nat.le_trans (Nat.le_of_eq (Nat.mul_add _ _ _)) (Nat.le_trans ?_ (Nat.le_of_eq (Nat.mul_add _ _ _).symm))
      refine Nat.add_le_add ?_ ih
      rw [Nat.mul_comm]
      exact Nat.mul_le_mul (Nat.le_max_right _ _) (Nat.le_refl _)
    | keep _ _ ih =>
      rw [List.length_cons, List.length_cons, Nat.mul_succ, Nat.mul_succ]
      exact Nat.add_le_add ih (Nat.le_max_left _ _)

/-- Factors multiply. -/
theorem factor_step {a b p q l m n : Nat} (h1 : p * m ≤ a * l) (h2 : q * n ≤ b * m) : p * q * n ≤ a * b * l := by
  calc p * q * n = p * (q * n) := Nat.mul_assoc _ _ _
    _ ≤ p * (b * m) := Nat.mul_le_mul_left _ h2
    _ = b * (p * m) := by rw [Nat.mul_left_comm]
    _ ≤ b * (a * l) := Nat.mul_le_mul_left _ h1
    _ = a * b * l := by rw [← Nat.mul_assoc, Nat.mul_comm b a]

theorem rules_growth (l : List (Str × Str)) (t : Str) :
    (l.foldr (fun r n => ((ruleFactor r).1 * n.1, (ruleFactor r).2 * n.2)) (1, 1)).2 *
      ((l.foldl (fun t e => strReplace e.1 e.2 t) t).length + 1) ≤
    (l.foldr (fun r n => ((ruleFactor r).1 * n.1, (ruleFactor r).2 * n.2)) (1, 1)).1 * (t.length + 1) := by
  induction l generalizing t with
  | nil => exact Nat.le_refl _
  | cons e l ih => exact factor_step (rule_growth e t) (ih _)

theorem perm_factor {l l' : List (Str × Str)} (h : l.Perm l') :
    l.foldr (fun r n => ((ruleFactor r).1 * n.1, (ruleFactor r).2 * n.2)) (1, 1) =
    l'.foldr (fun r n => ((ruleFactor r).1 * n.1, (ruleFactor r).2 * n.2)) (1, 1) := by
  induction h with
  | nil => rfl
  | cons _ _ ih => rw [List.foldr_cons, List.foldr_cons, ih]
  | swap a b l => simp only [List.foldr_cons, Prod.mk.injEq]; exact ⟨Nat.mul_left_comm _ _ _, Nat.mul_left_comm _ _ _⟩
  | trans _ _ ih1 ih2 => rw [ih1, ih2]

theorem modify_growth {k : ModifierKind} (hk : k.WF) (σ : Oracle) (t o : Str) (h : k.modify σ t = .ok o) :
    k.factor.2 * (o.length + 1) ≤ k.factor.1 * (t.length + 1) := by
  have sub : ∀ m : ModifierKind, (m = .trim ∨ m = .dottedSpaceEliminator ∨ (∃ x, m = .characterEliminator x) ∨
      ∃ x, m = .consecutiveCharacterReducer x) → m.modify σ t = .ok o → o.length ≤ t.length := by
    intro m hm h
    obtain ⟨o', h1, h2⟩ := C59_only_delete m hm σ t
    rw [h1] at h; cases h
    exact h2.length_le
  cases k with
  | ligatureTranslator x =>
    rw [ModifierKind.modify, Outcome.ok.injEq] at h
    rw [← h, ModifierKind.factor, ← perm_factor (σ.iter_perm x.map)]
    exact rules_growth _ t
  | characterConverter x =>
    rw [ModifierKind.modify, modify_eq, Outcome.ok.injEq] at h
    rw [← h]
    simp [ModifierKind.factor, substitute]
  | characterEliminator x =>
    have := sub _ (.inr (.inr (.inl ⟨x, rfl⟩))) h
    simpa [ModifierKind.factor] using this
  | consecutiveCharacterReducer x =>
    have := sub _ (.inr (.inr (.inr ⟨x, rfl⟩))) h
    simpa [ModifierKind.factor] using this
  | dottedSpaceEliminator =>
    have := sub _ (.inr (.inl rfl)) h
    simpa [ModifierKind.factor] using this
  | trim =>
    have := sub _ (.inl rfl) h
    simpa [ModifierKind.factor] using this
  | neologdn n =>
    obtain ⟨τ, hτ⟩ := hk
    obtain ⟨x, h1, -, h2, -⟩ := neologdn_new τ
    rw [h1] at hτ; cases hτ
    rw [ModifierKind.modify, h2, Outcome.ok.injEq] at h
    rw [← h]
    have := (neologdn_len t).1
    simpa [ModifierKind.factor] using this

/-- C81: a text of length `l` comes out with length at most `(l + 1) · a / b - 1`, where `a / b` is the
factor of the converter, whatever the hash order. -/
theorem C81_growth {c : Chanoma} (hc : ApiBuilt c) (σs : Nat → Oracle) (debug : Bool) (text out : Str)
    (h : c.normalize σs debug text = .ok out) :
    c.factor.2 * (out.length + 1) ≤ c.factor.1 * (text.length + 1) := by
  have hw := apiBuilt_wf hc
  have key : ∀ (ms : List ModifierKind), (∀ m ∈ ms, m.WF) → ∀ (i : Nat) (text out : Str),
      (ms.zipIdx i).foldlM (fun acc m => m.1.modify (σs m.2) acc) text = .ok out →
      (ms.foldr (fun m n => (m.factor.1 * n.1, m.factor.2 * n.2)) (1, 1)).2 * (out.length + 1) ≤
      (ms.foldr (fun m n => (m.factor.1 * n.1, m.factor.2 * n.2)) (1, 1)).1 * (text.length + 1) := by
    intro ms
    induction ms with
    | nil => intro _ i text out h; cases h; exact Nat.le_refl _
    | cons m ms ih =>
      intro hs i text out h
      rw [List.zipIdx_cons, List.foldlM_cons] at h
      obtain ⟨o, ps, h1, -⟩ := wf_agree m (hs m (by simp)) (σs i) text
      simp only [h1, Outcome.ok_bind] at h
      exact factor_step (modify_growth (hs m (by simp)) _ _ _ h1) (ih (fun m hm => hs m (by simp [hm])) _ _ _ h)
  have h' : c.normalize σs false text = .ok out := by
    cases debug with
    | false => exact h
    | true =>
      by_cases hne : c.modifiers = []
      · rw [normalize_debug_nil hne] at h; cases h
      · rw [← normalize_wf hw hne σs true]; exact h
  simp only [Chanoma.normalize, Bool.not_false, if_true] at h'
  exact key c.modifiers hw 0 text out h'

/-- C81: the factor of a single rule is attained on repetitions of its key. -/
theorem C81_attained (k v : Str) (hk : k ≠ []) (n : Nat) (σ : Oracle) :
    LigatureTranslator.modify ⟨[(k, v)]⟩ σ (List.replicate n k).flatten = (List.replicate n v).flatten := by
  rw [LigatureTranslator.modify, List.perm_singleton.1 (σ.iter_perm [(k, v)])]
  show strReplace k v _ = _
  induction n with
  | zero => exact strReplace_nil hk v
  | succ n ih => rw [List.replicate_succ, List.flatten_cons, strReplace_hit hk, ih, List.replicate_succ, List.flatten_cons]

/-! ### The hash order and the length -/

/-- `b…ba` with `i` times `b`. -/
def tower (i : Nat) : Str := List.replicate i 'b' ++ ['a']

theorem tower_ne (i : Nat) : tower i ≠ [] := by simp [tower]

theorem tower_length (i : Nat) : (tower i).length = i + 1 := by simp [tower]

theorem flatten_twice (v : Str) (n : Nat) :
    (List.replicate n (v ++ v)).flatten = (List.replicate (2 * n) v).flatten := by
  induction n with
  | zero => rfl
  | succ n ih =>
    rw [List.replicate_succ, List.flatten_cons, ih, Nat.mul_succ, List.replicate_succ, List.replicate_succ,
      List.flatten_cons, List.flatten_cons, List.append_assoc]

theorem towers_up (n i m : Nat) :
    ((List.range' i n).map fun j => (tower j, tower (j + 1) ++ tower (j + 1))).foldl
      (fun t e => strReplace e.1 e.2 t) (List.replicate m (tower i)).flatten =
    (List.replicate (2 ^ n * m) (tower (i + n))).flatten := by
  induction n generalizing i m with
  | zero => simp
  | succ n ih =>
    rw [List.range'_succ, List.map_cons, List.foldl_cons]
    have h := C81_attained (tower i) (tower (i + 1) ++ tower (i + 1)) (tower_ne i) m Oracle.insertion
    rw [LigatureTranslator.modify] at h
    have h' : strReplace (tower i) (tower (i + 1) ++ tower (i + 1)) (List.replicate m (tower i)).flatten = _ := h
    rw [h', flatten_twice, ih, ← Nat.mul_assoc, Nat.pow_succ, Nat.add_right_comm, Nat.add_assoc]

theorem towers_down (n i : Nat) (hi : 0 < i) :
    ((List.range' i n).map fun j => (tower j, tower (j + 1) ++ tower (j + 1))).reverse.foldl
      (fun t e => strReplace e.1 e.2 t) ['a'] = ['a'] := by
  rw [List.foldl_reverse]
  induction n generalizing i with
  | zero => rfl
  | succ n ih =>
    rw [List.range'_succ, List.map_cons, List.foldr_cons, ih (i + 1) (by omega)]
    exact strReplace_short (tower_ne i) _ _ (by rw [tower_length]; simp; omega)

theorem towers_first (n : Nat) :
    ((List.range' 0 (n + 1)).map fun j => (tower j, tower (j + 1) ++ tower (j + 1))).reverse.foldl
      (fun t e => strReplace e.1 e.2 t) ['a'] = c! "baba" := by
  rw [List.range'_succ, List.map_cons, List.reverse_cons, List.foldl_append, towers_down n 1 (by omega)]
  decide +kernel

/-- C81: the length can depend on the hash order, and exponentially: for every `n` there is a map of `n + 1`
rules with different keys for which the text `a` becomes `baba` in one order and at least `2 ^ (n + 1)`
characters long in another one. -/
theorem C81_order_and_length (n : Nat) : ∃ x : LigatureTranslator, x.map.length = n + 1 ∧
    (x.map.map Prod.fst).Nodup ∧ (∃ σ, x.modify σ (c! "a") = c! "baba") ∧
    ∃ τ, 2 ^ (n + 1) ≤ (x.modify τ (c! "a")).length := by
  refine ⟨⟨(List.range' 0 (n + 1)).map fun j => (tower j, tower (j + 1) ++ tower (j + 1))⟩, by simp, ?_, ?_, ?_⟩
  · simp only [List.map_map]
    refine List.Pairwise.map _ (fun i j (h : i ≠ j) e => h ?_) (List.nodup_range' (s := 0) (n := n + 1))
    have := congrArg List.length e
    simp only [Function.comp, tower_length] at this
    omega
  · obtain ⟨σ, hσ⟩ := Oracle.exists_iter (List.reverse_perm
      ((List.range' 0 (n + 1)).map fun j => (tower j, tower (j + 1) ++ tower (j + 1))))
    refine ⟨σ, ?_⟩
    rw [LigatureTranslator.modify, hσ, towers_first]
  · obtain ⟨τ, hτ⟩ := Oracle.exists_iter (List.Perm.refl
      ((List.range' 0 (n + 1)).map fun j => (tower j, tower (j + 1) ++ tower (j + 1))))
    refine ⟨τ, ?_⟩
    have h := towers_up (n + 1) 0 1
    simp only [List.replicate_one, List.flatten_cons, List.flatten_nil, List.append_nil] at h
    rw [LigatureTranslator.modify, hτ]
    show _ ≤ (List.foldl _ (tower 0) _).length
    rw [h, List.length_flatten, List.map_replicate, List.sum_replicate_nat, tower_length, Nat.mul_one]
    exact Nat.le_mul_of_pos_right _ (by omega)

/-- A converter with a rule that doubles: the bound for a text of three characters is 7. -/
example : ∃ c, ApiBuilt c ∧ c.factor = (4, 2) ∧ ∀ σs debug, c.normalize σs debug (c! "abc") = .ok (c! "cdcdc") := by
  refine ⟨⟨[.ligatureTranslator ⟨[(c! "ab", c! "cdcd")]⟩, .characterConverter ⟨[]⟩]⟩, ?_, by decide, ?_⟩
  · exact .fromConfigFile (σ := .insertion) (path := p! "/c.yaml")
      (w := .ofFiles [(p! "/c.yaml", .text [])] (fun _ => some (.mapping [(.string (c! "modifiers"),
        .mapping [(.string (c! "ligature_translator"), .mapping [(.string (c! "ab"), .string (c! "cdcd"))])])]))) rfl
  · intro σs debug
    rw [normalize_wf (by simp [ModifierKind.WF]) (by simp)]
    have e := List.perm_singleton.1 ((σs 0).iter_perm [(c! "ab", c! "cdcd")])
    simp only [Chanoma.normalize, ModifierKind.modify, LigatureTranslator.modify, modify_eq, substitute, HMap.get?,
      List.zipIdx_cons, List.zipIdx_nil, List.foldlM_cons, List.foldlM_nil, Bool.not_false, if_true, Outcome.ok_bind, e]
    decide +kernel

end Chanoma
