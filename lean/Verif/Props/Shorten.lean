import Verif.Spec.Shorten
import Verif.Props.Rest
/-! # C111: pipelines whose ligature rules shorten come to rest -/

namespace Chanoma

/-- What is known of a pass that may depend on the hash orders. -/
def Shortening {α : Type u} (F : α → Str → Str) (g : Char → Char) : Prop :=
  ∀ s t, (F s t).length ≤ t.length ∧ ((F s t).length = t.length → F s t = t.map g ∧ ∀ s', F s' t = F s t)

theorem rules_shorten {l : List (Str × Str)} (h : ∀ r ∈ l, r.2.length < r.1.length) (t : Str) :
    (l.foldl (fun acc r => strReplace r.1 r.2 acc) t).length ≤ t.length ∧
    ((l.foldl (fun acc r => strReplace r.1 r.2 acc) t).length = t.length → ∀ r ∈ l, ¬ r.1 <:+: t) := by
  induction l generalizing t with
  | nil => simp
  | cons r l ih =>
    have hr := h r (by simp)
    have hk : r.1 ≠ [] := by intro e; rw [e] at hr; simp at hr
    obtain ⟨n, h1, h2⟩ := strReplace_length hk r.2 t
    have h3 : n * r.2.length ≤ n * r.1.length := Nat.mul_le_mul_left _ (Nat.le_of_lt hr)
    have ih := ih (fun r hr => h r (by simp [hr])) (strReplace r.1 r.2 t)
    rw [List.foldl_cons]
    refine ⟨by omega, fun e => ?_⟩
    have hno : ¬ r.1 <:+: t := fun hi => by
      have := Nat.mul_lt_mul_of_pos_left hr (h2 hi)
      omega
    have he := strReplace_absent hk r.2 hno
    rw [he] at ih e
    intro r' hr'
    rcases List.mem_cons.1 hr' with rfl | hr'
    · exact hno
    · exact ih.2 e r' hr'

theorem rules_none {l : List (Str × Str)} (h : ∀ r ∈ l, r.2.length < r.1.length) {t : Str}
    (hn : ∀ r ∈ l, ¬ r.1 <:+: t) : l.foldl (fun acc r => strReplace r.1 r.2 acc) t = t := by
  induction l with
  | nil => rfl
  | cons r l ih =>
    have hr := h r (by simp)
    have hk : r.1 ≠ [] := by intro e; rw [e] at hr; simp at hr
    rw [List.foldl_cons, strReplace_absent hk r.2 (hn r (by simp))]
    exact ih (fun r hr => h r (by simp [hr])) fun r hr => hn r (by simp [hr])

theorem ligature_shortening (x : LigatureTranslator) (h : ∀ r ∈ x.map, r.2.length < r.1.length) :
    Shortening (fun σ t => x.modify σ t) id := by
  intro σ t
  have hm : ∀ σ r, r ∈ Oracle.iter σ x.map ↔ r ∈ x.map := fun σ r => (σ.iter_perm x.map).mem_iff
  have h1 := rules_shorten (l := Oracle.iter σ x.map) (fun r hr => h r ((hm σ r).1 hr)) t
  refine ⟨h1.1, fun e => ?_⟩
  have h2 := h1.2 e
  have h3 : ∀ τ, x.modify τ t = t := fun τ =>
    rules_none (fun r hr => h r ((hm τ r).1 hr)) fun r hr => h2 r ((hm σ r).2 ((hm τ r).1 hr))
  exact ⟨by rw [List.map_id]; exact h3 σ, fun s' => (h3 s').trans (h3 σ).symm⟩

theorem kind_shortening {m : ModifierKind} (hw : m.WF) (hs : m.Shortens) :
    ∃ F : Oracle → Str → Str, (∀ σ t, m.modify σ t = .ok (F σ t)) ∧ Shortening F m.onChar := by
  by_cases hl : ∃ x, m = .ligatureTranslator x
  · obtain ⟨x, rfl⟩ := hl
    exact ⟨fun σ t => x.modify σ t, fun _ _ => rfl, ligature_shortening x hs⟩
  · obtain ⟨f, h1, h2⟩ := kind_shrinks hw fun x e => hl ⟨x, e⟩
    exact ⟨fun _ => f, h1, fun _ t => ⟨(h2 t).1, fun e => ⟨(h2 t).2 e, fun _ => rfl⟩⟩⟩

theorem run_shortening {ms : List ModifierKind} (hw : ∀ m ∈ ms, m.WF) (hs : ∀ m ∈ ms, m.Shortens) (n : Nat) :
    ∃ F : (Nat → Oracle) → Str → Str, (∀ (σs : Nat → Oracle) t,
      (ms.zipIdx n).foldlM (fun acc m => m.1.modify (σs m.2) acc) t = .ok (F σs t)) ∧
      Shortening F (fun ch => ms.foldl (fun ch m => m.onChar ch) ch) := by
  induction ms generalizing n with
  | nil => exact ⟨fun _ => id, fun σs t => by simp, fun _ t => ⟨Nat.le_refl _, fun _ => by simp⟩⟩
  | cons m ms ih =>
    obtain ⟨F, hF, h1⟩ := kind_shortening (hw m (by simp)) (hs m (by simp))
    obtain ⟨F', hF', h2⟩ := ih (fun m hm => hw m (by simp [hm])) (fun m hm => hs m (by simp [hm])) (n + 1)
    refine ⟨fun σs t => F' σs (F (σs n) t), fun σs t => ?_, fun σs t => ?_⟩
    · rw [List.zipIdx_cons, List.foldlM_cons, hF, Outcome.ok_bind, hF']
    · have l1 := (h1 (σs n) t).1
      have l2 := (h2 σs (F (σs n) t)).1
      refine ⟨Nat.le_trans l2 l1, fun e => ?_⟩
      replace e : (F' σs (F (σs n) t)).length = t.length := e
      obtain ⟨e1, e2⟩ := (h1 (σs n) t).2 (by omega)
      obtain ⟨e3, e4⟩ := (h2 σs (F (σs n) t)).2 (by omega)
      refine ⟨?_, fun τs => ?_⟩
      · show F' σs (F (σs n) t) = _
        rw [e3, e1, List.map_map]; rfl
      · show F' τs (F (τs n) t) = F' σs (F (σs n) t)
        rw [e2, e4]

/-- The texts of successive passes. -/
def manyPasses {α : Type u} (F : α → Str → Str) (s : Nat → α) (t : Str) : Nat → Str
  | 0 => t
  | n + 1 => F (s n) (manyPasses F s t n)

theorem passes_add {α : Type u} (F : α → Str → Str) (s : Nat → α) (t : Str) (a b : Nat) :
    manyPasses F s t (a + b) = manyPasses F (fun n => s (a + n)) (manyPasses F s t a) b := by
  induction b with
  | zero => rfl
  | succ b ih => rw [← Nat.add_assoc, manyPasses, ih, manyPasses]

theorem passes_length {α : Type u} {F : α → Str → Str} {g : Char → Char} (h : Shortening F g) (s : Nat → α) (t : Str) (n : Nat) :
    (manyPasses F s t n).length ≤ t.length := by
  induction n with
  | zero => exact Nat.le_refl _
  | succ n ih => exact Nat.le_trans (h _ _).1 ih

theorem passes_rest {α : Type u} {F : α → Str → Str} {g : Char → Char} (h : Shortening F g) {K : Nat}
    (hK : ∀ ch, g (Nat.repeat g K ch) = Nat.repeat g K ch) (L : Nat) (s : Nat → α) (t : Str) (hL : t.length ≤ L) :
    ∃ out, (∀ m, L * (K + 1) + K ≤ m → manyPasses F s t m = out) ∧ ∀ a, F a out = out := by
  have same : ∀ (s : Nat → α) (t : Str), (manyPasses F s t (K + 1)).length = t.length →
      ∃ out, (∀ m, K ≤ m → manyPasses F s t m = out) ∧ ∀ a, F a out = out := by
    intro s t e
    have len : ∀ k, k ≤ K + 1 → (manyPasses F s t k).length = t.length := by
      intro k hk
      have h1 := passes_length h s t k
      have h2 := passes_length h (fun n => s (k + n)) (manyPasses F s t k) (K + 1 - k)
      rw [← passes_add, show k + (K + 1 - k) = K + 1 by omega] at h2
      omega
    have eq : ∀ k, k ≤ K + 1 → manyPasses F s t k = t.map (Nat.repeat g k) := by
      intro k
      induction k with
      | zero => intro _; simp [manyPasses, Nat.repeat]
      | succ k ih =>
        intro hk
        have l1 := len (k + 1) hk
        have l2 := len k (by omega)
        rw [manyPasses] at l1 ⊢
        rw [((h _ _).2 (by omega)).1, ih (by omega), List.map_map]
        rfl
    have e1 := len (K + 1) (Nat.le_refl _)
    have e2 := len K (by omega)
    rw [manyPasses] at e1
    have e3 := (h (s K) (manyPasses F s t K)).2 (by omega)
    have e4 : F (s K) (manyPasses F s t K) = manyPasses F s t K := by
      rw [e3.1, eq K (by omega), List.map_map]
      exact List.map_congr_left fun ch _ => hK ch
    have e5 : ∀ a, F a (manyPasses F s t K) = manyPasses F s t K := fun a => (e3.2 a).trans e4
    refine ⟨manyPasses F s t K, fun m hm => ?_, e5⟩
    obtain ⟨d, rfl⟩ : ∃ d, m = K + d := ⟨m - K, by omega⟩
    induction d with
    | zero => rfl
    | succ d ih => rw [← Nat.add_assoc, manyPasses, ih (by omega), e5]
  induction L generalizing s t with
  | zero =>
    obtain ⟨out, h1, h2⟩ := same s t (by have := passes_length h s t (K + 1); omega)
    exact ⟨out, fun m hm => h1 m (by omega), h2⟩
  | succ L ih =>
    by_cases e : (manyPasses F s t (K + 1)).length = t.length
    · obtain ⟨out, h1, h2⟩ := same s t e
      exact ⟨out, fun m hm => h1 m (by omega), h2⟩
    · have := passes_length h s t (K + 1)
      obtain ⟨out, h1, h2⟩ := ih (fun n => s (K + 1 + n)) (manyPasses F s t (K + 1)) (by omega)
      refine ⟨out, fun m hm => ?_, h2⟩
      rw [Nat.add_mul, Nat.one_mul] at hm
      rw [show m = K + 1 + (m - (K + 1)) by omega, passes_add]
      exact h1 _ (by omega)

theorem again_passes {c : Chanoma} {F : (Nat → Oracle) → Str → Str} (h : ∀ σs t, c.normalize σs false t = .ok (F σs t))
    (seeds : Nat → Nat → Oracle) (text : Str) (n : Nat) : c.again seeds text n = .ok (manyPasses F seeds text n) := by
  induction n with
  | zero => rfl
  | succ n ih => rw [Chanoma.again, ih, Outcome.ok_bind, h, manyPasses]

theorem noCycle_bound {g : Char → Char} (hg : NoCycle g) : ∃ K, ∀ ch, g (Nat.repeat g K ch) = Nat.repeat g K ch := by
  obtain ⟨cs, -, hcs⟩ := exists_all_chars
  have up : ∀ ch i, g (Nat.repeat g i ch) = Nat.repeat g i ch → ∀ d, Nat.repeat g (d + i) ch = Nat.repeat g i ch := by
    intro ch i h d
    induction d with
    | zero => rw [Nat.zero_add]
    | succ d ih => rw [Nat.succ_add, Nat.repeat, ih, h]
  have one : ∀ ch, ∃ i, g (Nat.repeat g i ch) = Nat.repeat g i ch := by
    intro ch
    obtain ⟨i, j, hij, e⟩ := comes_back cs (fun n => Nat.repeat g n ch) fun n => hcs _
    refine ⟨i, hg _ (j - i) (by omega) ?_⟩
    rw [← repeat_add, show j - i + i = j by omega]
    exact e.symm
  suffices ∀ l : List Char, ∃ K, ∀ ch ∈ l, g (Nat.repeat g K ch) = Nat.repeat g K ch by
    obtain ⟨K, hK⟩ := this cs
    exact ⟨K, fun ch => hK ch (hcs ch)⟩
  intro l
  induction l with
  | nil => exact ⟨0, by simp⟩
  | cons c l ih =>
    obtain ⟨K, hK⟩ := ih
    obtain ⟨i, hi⟩ := one c
    refine ⟨K + i, fun ch hch => ?_⟩
    rcases List.mem_cons.1 hch with rfl | hch
    · rw [up ch i hi, hi]
    · rw [Nat.add_comm, up ch K (hK ch hch), hK ch hch]

/-! ### The property -/

/-- C111: if all ligature rules shorten and the converters take no character round in a circle, every text comes to
rest, whatever the hash orders, after a number of passes that depends on its length only. -/
theorem C111_comes_to_rest {c : Chanoma} (hc : ApiBuilt c) (hs : ∀ m ∈ c.modifiers, m.Shortens) (hg : NoCycle c.onChar) :
    ∃ K, ∀ seeds text, ∃ out, (∀ m, text.length * (K + 1) + K ≤ m → c.again seeds text m = .ok out) ∧
      ∀ σs, c.normalize σs false out = .ok out := by
  obtain ⟨F, h1, h2⟩ := run_shortening (apiBuilt_wf hc) hs 0
  obtain ⟨K, hK⟩ := noCycle_bound hg
  refine ⟨K, fun seeds text => ?_⟩
  obtain ⟨out, h3, h4⟩ := passes_rest h2 hK text.length seeds text (Nat.le_refl _)
  refine ⟨out, fun m hm => ?_, fun σs => ?_⟩
  · rw [again_passes (F := F) (c := c) (fun σs t => h1 σs t), h3 m hm]
  · exact (h1 σs out).trans (by rw [h4])

/-- C111: if no modifier writes a character for another one, as many passes are enough as the text has characters. -/
theorem C111_passes {c : Chanoma} (hc : ApiBuilt c) (hs : ∀ m ∈ c.modifiers, m.Shortens) (hn : ∀ m ∈ c.modifiers, ∀ ch, m.onChar ch = ch)
    (seeds : Nat → Nat → Oracle) (text : Str) :
    ∃ out, (∀ m, text.length ≤ m → c.again seeds text m = .ok out) ∧ ∀ σs, c.normalize σs false out = .ok out := by
  obtain ⟨F, h1, h2⟩ := run_shortening (apiBuilt_wf hc) hs 0
  have hid : ∀ ch, c.onChar ch = ch := by
    intro ch
    rw [Chanoma.onChar]
    generalize c.modifiers = ms at hn
    induction ms with
    | nil => rfl
    | cons m ms ih =>
      rw [List.foldl_cons]
      rw [hn m (by simp) ch]
      exact ih fun m hm => hn m (by simp [hm])
  obtain ⟨out, h3, h4⟩ := passes_rest h2 (K := 0) (fun ch => hid ch) text.length seeds text (Nat.le_refl _)
  refine ⟨out, fun m hm => ?_, fun σs => ?_⟩
  · rw [again_passes (F := F) (c := c) (fun σs t => h1 σs t), h3 m (by omega)]
  · exact (h1 σs out).trans (by rw [h4])

/-- C111: no fixed number is: the rule that deletes `ab` takes away one pair in each pass. -/
theorem C111_any_number (seeds : Nat → Nat → Oracle) (n m : Nat) (hm : m ≤ n) :
    (oneRule (c! "ab") []).again seeds (List.replicate n 'a' ++ List.replicate n 'b') m =
      .ok (List.replicate (n - m) 'a' ++ List.replicate (n - m) 'b') := by
  have step : ∀ k, strReplace (c! "ab") [] (List.replicate (k + 1) 'a' ++ List.replicate (k + 1) 'b') =
      List.replicate k 'a' ++ List.replicate k 'b' := by
    intro k
    have hb : ∀ j, strReplace (c! "ab") [] (List.replicate j 'b') = List.replicate j 'b' := fun j =>
      strReplace_absent (by decide) [] fun h => by
        have := List.eq_of_mem_replicate (h.subset (show 'a' ∈ c! "ab" by decide))
        exact absurd this (by decide)
    suffices ∀ i j, strReplace (c! "ab") [] (List.replicate (i + 1) 'a' ++ List.replicate (j + 1) 'b') =
        List.replicate i 'a' ++ List.replicate j 'b' from this k k
    intro i j
    induction i with
    | zero =>
      have := strReplace_hit (k := c! "ab") (by decide) [] (List.replicate j 'b')
      rw [hb] at this
      exact this
    | succ i ih =>
      rw [List.replicate_succ, List.cons_append, strReplace_keep (by decide) [], ih, List.replicate_succ, List.cons_append]
      rw [List.replicate_succ, List.cons_append]
      intro h
      have := List.prefix_cons_iff.1 h
      simp [List.prefix_cons_iff] at this
  rw [again_eq (oneRule_normalize _ _)]
  congr 1
  induction m with
  | zero => rfl
  | succ m ih =>
    rw [Nat.repeat, ih (by omega), show n - m = n - (m + 1) + 1 by omega, step]

/-- C111: what is left can depend on the hash orders. -/
theorem C111_order (n : Nat) :
    (Chanoma.mk [.ligatureTranslator ⟨[(c! "ab", []), (c! "bc", [])]⟩]).again (fun _ _ => .insertion) (c! "abc") (n + 1) =
      .ok (c! "c") ∧
    (Chanoma.mk [.ligatureTranslator ⟨[(c! "ab", []), (c! "bc", [])]⟩]).again (fun _ _ => .reversed) (c! "abc") (n + 1) =
      .ok (c! "a") := by
  induction n with
  | zero => exact ⟨rfl, rfl⟩
  | succ n ih => exact ⟨by rw [Chanoma.again, ih.1]; rfl, by rw [Chanoma.again, ih.2]; rfl⟩

/- A pipeline with a rule that shortens, and no converter that does anything. -/
example : ∃ c, ApiBuilt c ∧ (∀ m ∈ c.modifiers, m.Shortens) ∧ (∀ m ∈ c.modifiers, ∀ ch, m.onChar ch = ch) ∧
    NoCycle c.onChar ∧ ∃ x, .ligatureTranslator x ∈ c.modifiers ∧ x.map ≠ [] := by
  have h : ApiBuilt ⟨[.ligatureTranslator ⟨[(c! "ab", c! "c")]⟩, .characterConverter ⟨[]⟩]⟩ :=
    .fromConfigFile (σ := .insertion) (path := p! "/c.yaml")
      (w := .ofFiles [(p! "/c.yaml", .text [])] (fun _ => some (.mapping [(.string (c! "modifiers"),
        .mapping [(.string (c! "ligature_translator"), .mapping [(.string (c! "ab"), .string (c! "c"))])])]))) rfl
  refine ⟨_, h, ?_, ?_, noCycle_of_twice fun ch => rfl, _, List.mem_cons_self, by simp⟩
  · intro m hm
    simp only [List.mem_cons, List.not_mem_nil, or_false] at hm
    rcases hm with rfl | rfl <;> simp [ModifierKind.Shortens]
  · intro m hm ch
    simp only [List.mem_cons, List.not_mem_nil, or_false] at hm
    rcases hm with rfl | rfl <;> rfl

end Chanoma
