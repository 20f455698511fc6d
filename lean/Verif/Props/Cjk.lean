import Verif.Props.Conversion
import Verif.Spec.Cjk
/-! # C47, C48: the CJK compatibility table -/

namespace Chanoma

theorem square_cases {P : Char → Prop} (h : ∀ n < 256, P (Char.ofNat (0x3300 + n))) {c : Char}
    (hc : IsSquare c) : P c := by
  have := h (c.toNat - 0x3300) (by have := hc.2; omega)
  rwa [show 0x3300 + (c.toNat - 0x3300) = c.toNat by have := hc.1; omega, char_ofNat_toNat] at this

theorem mem_cjkItems {σ : Oracle} {x : Item} : x ∈ cjkItems σ ↔ x ∈ cjkConsts := mem_sumChain

/-- The constants of the repository in code point order, computed from the specification. -/
theorem cjkConsts_eq : cjkConsts = (List.range 256).flatMap fun n =>
    (listedExpansions (Char.ofNat (0x3300 + n))).map fun to => ⟨[Char.ofNat (0x3300 + n)], to⟩ := by
  decide +kernel

theorem squareChar_toNat {n : Nat} (hn : n < 256) : (Char.ofNat (0x3300 + n)).toNat = 0x3300 + n := by
  unfold Char.ofNat
  rw [dif_pos (by left; omega)]
  show (UInt32.ofNatLT _ _).toNat = _
  rw [UInt32.toNat_ofNatLT]

theorem squareChar_inj {m n : Nat} (hm : m < 256) (hn : n < 256)
    (h : Char.ofNat (0x3300 + m) = Char.ofNat (0x3300 + n)) : m = n := by
  have := congrArg Char.toNat h
  rw [squareChar_toNat hm, squareChar_toNat hn] at this
  omega

theorem mem_cjkConsts {x : Item} : x ∈ cjkConsts ↔ ∃ n < 256,
    x.from = [Char.ofNat (0x3300 + n)] ∧ x.to ∈ listedExpansions (Char.ofNat (0x3300 + n)) := by
  rw [cjkConsts_eq, List.mem_flatMap]
  constructor
  · rintro ⟨n, hn, hx⟩
    obtain ⟨to, ht, rfl⟩ := List.mem_map.mp hx
    exact ⟨n, List.mem_range.mp hn, rfl, ht⟩
  · rintro ⟨n, hn, h1, h2⟩
    refine ⟨n, List.mem_range.mpr hn, List.mem_map.mpr ⟨x.to, h2, ?_⟩⟩
    rw [← h1]

theorem cjkConsts_listed : ∀ x ∈ cjkConsts, ∃ c ∈ x.from.head?, x.from = [c] ∧ x.to ∈ listedExpansions c := by
  intro x hx
  obtain ⟨n, -, h1, h2⟩ := mem_cjkConsts.mp hx
  exact ⟨_, by rw [h1]; rfl, h1, h2⟩

theorem listed_cjkConsts : ∀ n < 256, ∀ to ∈ listedExpansions (Char.ofNat (0x3300 + n)),
    (⟨[Char.ofNat (0x3300 + n)], to⟩ : Item) ∈ cjkConsts :=
  fun n hn _ h => mem_cjkConsts.mpr ⟨n, hn, rfl, h⟩

theorem listed_nodup (c : Char) : (listedExpansions c).Nodup := by
  unfold listedExpansions
  (repeat' split) <;> first | exact List.nodup_nil | exact (by decide) | simp

theorem cjkConsts_nodup : cjkConsts.Nodup := by
  rw [cjkConsts_eq]
  unfold List.Nodup
  rw [List.pairwise_flatMap]
  refine ⟨fun n _ => ?_, ?_⟩
  · rw [List.pairwise_map]
    exact (listed_nodup _).imp fun h e => h (by cases e; rfl)
  · refine List.pairwise_lt_range.imp_of_mem fun {m n} hm hn hlt x hx y hy e => ?_
    obtain ⟨_, -, rfl⟩ := List.mem_map.mp hx
    obtain ⟨_, -, rfl⟩ := List.mem_map.mp hy
    have h1 := squareChar_inj (List.mem_range.mp hm) (List.mem_range.mp hn)
      (by have := congrArg Item.from e; simpa using this)
    omega

theorem listed_square {c : Char} {to : Str} (h : to ∈ listedExpansions c) : IsSquare c := by
  apply Classical.byContradiction
  intro hn
  simp [listedExpansions, hn] at h

theorem foldl_corrAdd_ssorted (σ : Oracle) (cs : List Item) : ∀ acc, SSorted acc →
    SSorted (cs.foldl (fun acc i => corrAdd σ acc (linearItems i.from i.to)) acc) := by
  induction cs with
  | nil => intro acc h; exact h
  | cons c cs ih => intro acc _; exact ih _ (corrAdd_ssorted σ _ _)

theorem sumChain_ssorted (σ : Oracle) (cs : List Item) : SSorted (sumChain σ cs) := by
  cases cs with
  | nil => exact .nil
  | cons c cs => exact foldl_corrAdd_ssorted σ cs _ (by simp [linearItems, SSorted])

/-! ## C47 -/

/-- C47: the CJK table lists exactly `listedExpansions`, and its listing is strictly sorted. -/
theorem C47_items (σ : Oracle) :
    (∀ x, x ∈ cjkItems σ ↔ ∃ c, x.from = [c] ∧ x.to ∈ listedExpansions c) ∧
    (cjkItems σ).Pairwise ItemLt ∧ (cjkItems σ).length = 256 := by
  have hmem : ∀ x, x ∈ cjkItems σ ↔ ∃ c, x.from = [c] ∧ x.to ∈ listedExpansions c := by
    intro x
    rw [mem_cjkItems]
    constructor
    · intro h
      obtain ⟨c, -, h1, h2⟩ := cjkConsts_listed x h
      exact ⟨c, h1, h2⟩
    · rintro ⟨c, h1, h2⟩
      have := square_cases (P := fun c => ∀ to ∈ listedExpansions c, (⟨[c], to⟩ : Item) ∈ cjkConsts)
        listed_cjkConsts (listed_square h2) x.to h2
      rwa [← h1] at this
  have hs : SSorted (cjkItems σ) := sumChain_ssorted σ cjkConsts
  refine ⟨hmem, hs, ?_⟩
  have h1 : (cjkItems σ).Perm cjkConsts :=
    (List.perm_ext_iff_of_nodup hs.nodup cjkConsts_nodup).mpr fun x => mem_cjkItems
  rw [h1.length_eq]
  decide +kernel

/-- C47: outside six squares the table is a function with Unicode's expansion as value, total on
the block and undefined elsewhere. -/
theorem C47_functional (σ : Oracle) (c : Char)
    (hc : c ∉ ['\u339f', '\u33a3', '\u33a4', '\u33cd', '\u33d7', '\u33d9']) (to : Str) :
    (⟨[c], to⟩ : Item) ∈ cjkItems σ ↔ IsSquare c ∧ to = unicodeExpansion c := by
  rw [(C47_items σ).1]
  simp only [List.mem_cons, List.not_mem_nil, or_false, not_or] at hc
  obtain ⟨h1, h2, h3, h4, h5, h6⟩ := hc
  constructor
  · rintro ⟨d, hd, h⟩
    cases hd
    refine ⟨listed_square h, ?_⟩
    have hsq := listed_square h
    unfold listedExpansions at h
    rw [if_neg (fun hn => hn hsq), if_neg h1, if_neg h2, if_neg h3, if_neg h4, if_neg h5,
      if_neg h6] at h
    exact List.mem_singleton.mp h
  · intro he
    obtain ⟨h, he⟩ := he
    refine ⟨c, rfl, ?_⟩
    unfold listedExpansions
    rw [if_neg (fun hn => hn h), if_neg h1, if_neg h2, if_neg h3, if_neg h4, if_neg h5, if_neg h6]
    exact List.mem_singleton.mpr he

/-- C47 refuted: `㎤` is missing, `㎣` has two targets, `㎟` loses its exponent. -/
theorem C47_not_covered (σ : Oracle) (to : Str) :
    (⟨['\u33a4'], to⟩ : Item) ∉ cjkItems σ ∧
    ((⟨['\u33a3'], to⟩ : Item) ∈ cjkItems σ ↔ to = c! "mm3" ∨ to = c! "cm3") ∧
    ((⟨['\u339f'], to⟩ : Item) ∈ cjkItems σ ↔ to = c! "mm") := by
  have key : ∀ c : Char, (⟨[c], to⟩ : Item) ∈ cjkItems σ ↔ to ∈ listedExpansions c := by
    intro c
    rw [(C47_items σ).1]
    constructor
    · rintro ⟨d, hd, h⟩; cases hd; exact h
    · intro h; exact ⟨c, rfl, h⟩
  rw [key, key, key]
  refine ⟨?_, ?_, ?_⟩
  · rw [show listedExpansions '\u33a4' = [] by decide +kernel]; simp
  · rw [show listedExpansions '\u33a3' = [c! "mm3", c! "cm3"] by decide +kernel]; simp
  · rw [show listedExpansions '\u339f' = [c! "mm"] by decide +kernel]; simp

/-- C47: the other three deviate in how they are written: `K.`, `pH` and `ppm` for Unicode's `KK`,
`PH` and `PPM`. -/
theorem C47_written_differently (σ : Oracle) (to : Str) :
    ((⟨['\u33cd'], to⟩ : Item) ∈ cjkItems σ ↔ to = c! "K.") ∧ unicodeExpansion '\u33cd' = c! "KK" ∧
    ((⟨['\u33d7'], to⟩ : Item) ∈ cjkItems σ ↔ to = c! "pH") ∧ unicodeExpansion '\u33d7' = c! "PH" ∧
    ((⟨['\u33d9'], to⟩ : Item) ∈ cjkItems σ ↔ to = c! "ppm") ∧ unicodeExpansion '\u33d9' = c! "PPM" := by
  have key : ∀ c : Char, (⟨[c], to⟩ : Item) ∈ cjkItems σ ↔ to ∈ listedExpansions c := by
    intro c
    rw [(C47_items σ).1]
    constructor
    · rintro ⟨d, hd, h⟩; cases hd; exact h
    · intro h; exact ⟨c, rfl, h⟩
  rw [key, key, key]
  refine ⟨?_, by decide +kernel, ?_, by decide +kernel, ?_, by decide +kernel⟩
  · rw [show listedExpansions '\u33cd' = [c! "K."] by decide +kernel]; simp
  · rw [show listedExpansions '\u33d7' = [c! "pH"] by decide +kernel]; simp
  · rw [show listedExpansions '\u33d9' = [c! "ppm"] by decide +kernel]; simp

example : '㌔' ∉ ['\u339f', '\u33a3', '\u33a4', '\u33cd', '\u33d7', '\u33d9'] ∧ IsSquare '㌔' ∧
    unicodeExpansion '㌔' = c! "キロ" := by decide +kernel

/-! ## C48 -/

/-- Only the items for `c` matter for `c`. -/
theorem itemSubst_filter (items : List Item) (c : Char) :
    itemSubst items c = itemSubst (items.filter fun i => i.from.head? = some c) c := by
  unfold itemSubst
  rw [← List.filter_reverse, List.find?_filter]
  simp

theorem SSorted.filter {l : List Item} (h : SSorted l) (p : Item → Bool) : SSorted (l.filter p) :=
  List.Pairwise.filter p h

/-- The CJK items for the square U+3300 + `n`, sorted. -/
def squareItems (n : Nat) : List Item :=
  if n = 0xA3 then [⟨['\u33a3'], c! "cm3"⟩, ⟨['\u33a3'], c! "mm3"⟩]
  else (listedExpansions (Char.ofNat (0x3300 + n))).map fun to => ⟨[Char.ofNat (0x3300 + n)], to⟩

theorem mem_squareItems {n : Nat} {x : Item} : x ∈ squareItems n ↔
    x.from = [Char.ofNat (0x3300 + n)] ∧ x.to ∈ listedExpansions (Char.ofNat (0x3300 + n)) := by
  unfold squareItems
  split
  · rename_i h
    subst h
    rw [show listedExpansions (Char.ofNat (0x3300 + 0xA3)) = [c! "mm3", c! "cm3"] by decide +kernel]
    obtain ⟨a, b⟩ := x
    simp only [List.mem_cons, List.not_mem_nil, or_false, Item.mk.injEq]
    constructor
    · rintro (⟨rfl, rfl⟩ | ⟨rfl, rfl⟩) <;> exact ⟨rfl, by simp⟩
    · rintro ⟨rfl, rfl | rfl⟩
      · exact .inr ⟨rfl, rfl⟩
      · exact .inl ⟨rfl, rfl⟩
  · rw [List.mem_map]
    constructor
    · rintro ⟨to, h, rfl⟩; exact ⟨rfl, h⟩
    · rintro ⟨h1, h2⟩; exact ⟨x.to, h2, by rw [← h1]⟩

theorem squareItems_subst : ∀ n < 256,
    (n = 0xA3 ∨ (squareItems n).length ≤ 1) ∧
    (itemSubst (squareItems n) (Char.ofNat (0x3300 + n))).getD (Char.ofNat (0x3300 + n)) =
      squareHead (Char.ofNat (0x3300 + n)) := by decide +kernel

theorem squareItems_spec (n : Nat) (hn : n < 256) :
    (∀ x ∈ cjkConsts, x.from.head? = some (Char.ofNat (0x3300 + n)) → x ∈ squareItems n) ∧
    (∀ x ∈ squareItems n, x ∈ cjkConsts ∧ x.from.head? = some (Char.ofNat (0x3300 + n))) ∧
    (n = 0xA3 ∨ (squareItems n).length ≤ 1) ∧
    (itemSubst (squareItems n) (Char.ofNat (0x3300 + n))).getD (Char.ofNat (0x3300 + n)) =
      squareHead (Char.ofNat (0x3300 + n)) := by
  refine ⟨fun x hx hh => ?_, fun x hx => ?_, squareItems_subst n hn⟩
  · obtain ⟨m, hm, h1, h2⟩ := mem_cjkConsts.mp hx
    rw [h1] at hh
    have : m = n := squareChar_inj hm hn (Option.some.inj hh)
    subst this
    exact mem_squareItems.mpr ⟨h1, h2⟩
  · have h := mem_squareItems.mp hx
    exact ⟨mem_cjkConsts.mpr ⟨n, hn, h⟩, by rw [h.1]; rfl⟩

theorem squareItems_ssorted {n : Nat} (hn : n < 256) : SSorted (squareItems n) := by
  rcases (squareItems_spec n hn).2.2.1 with h | h
  · subst h
    refine List.pairwise_cons.mpr ⟨?_, List.pairwise_singleton _ _⟩
    intro x hx
    simp only [List.mem_cons, List.not_mem_nil, or_false] at hx
    subst hx
    exact ⟨.inr ⟨rfl, .lt _ _ (by decide)⟩, by decide⟩
  · match squareItems n, h with
    | [], _ => exact .nil
    | [x], _ => exact List.pairwise_singleton _ _

/-- C48: in a table extended by the CJK table every square becomes the first character of its
listed expansion (`㎣`, with two of them, becomes `m`; `㎤` stays), everything else is converted
as without it. -/
theorem C48_first_character (σ τ : Oracle) (t : Table) (hne : CellsNonEmpty t.items)
    (hsorted : t.items.Pairwise ItemLt)
    (hsq : ∀ i ∈ t.items, ∀ c, i.from.head? = some c → ¬ IsSquare c) :
    ∃ ch, Chanoma.fromTable (t.add σ (cjkItems τ)) = .ok ch ∧
      ∀ σs debug text, ch.normalize σs debug text = .ok (text.map fun c =>
        if IsSquare c then squareHead c else (itemSubst t.items c).getD c) := by
  have hmem : ∀ x, x ∈ (t.add σ (cjkItems τ)).items ↔ x ∈ t.items ∨ x ∈ cjkConsts := by
    intro x
    rw [← mem_cjkItems (σ := τ)]
    exact mem_corrAdd
  have hss : SSorted (t.add σ (cjkItems τ)).items := corrAdd_ssorted _ _ _
  obtain ⟨ch, h1, h2⟩ := C01_table_substitution (t.add σ (cjkItems τ)) (by
    intro i hi
    rcases (hmem i).mp hi with h | h
    · exact hne i h
    · exact (by decide +kernel : ∀ i ∈ cjkConsts, i.from ≠ [] ∧ i.to ≠ []) i h)
  refine ⟨ch, h1, fun σs debug text => ?_⟩
  rw [h2]
  congr 1
  apply List.map_congr_left
  intro c _
  rw [itemSubst_filter]
  split
  · rename_i hc
    revert c
    have key : ∀ n < 256, (itemSubst ((t.add σ (cjkItems τ)).items.filter fun i =>
        i.from.head? = some (Char.ofNat (0x3300 + n))) (Char.ofNat (0x3300 + n))).getD
          (Char.ofNat (0x3300 + n)) = squareHead (Char.ofNat (0x3300 + n)) := by
      intro n hn
      obtain ⟨k1, k2, -, k4⟩ := squareItems_spec n hn
      rw [← k4]
      congr 2
      refine ssorted_ext (hss.filter _) (squareItems_ssorted hn) fun x => ?_
      rw [List.mem_filter, hmem]
      constructor
      · rintro ⟨h | h, hh⟩
        · refine absurd ?_ (hsq x h _ (of_decide_eq_true hh))
          unfold IsSquare
          rw [squareChar_toNat hn]; omega
        · exact k1 x h (of_decide_eq_true hh)
      · intro h
        exact ⟨.inr (k2 x h).1, decide_eq_true (k2 x h).2⟩
    intro c _ hc
    exact square_cases (P := fun c => (itemSubst ((t.add σ (cjkItems τ)).items.filter fun i =>
        i.from.head? = some c) c).getD c = squareHead c) key hc
  · rename_i hc
    rw [itemSubst_filter t.items]
    congr 2
    refine ssorted_ext (hss.filter _) (SSorted.filter hsorted _) fun x => ?_
    rw [List.mem_filter, List.mem_filter, hmem]
    constructor
    · rintro ⟨h | h, hh⟩
      · exact ⟨h, hh⟩
      · obtain ⟨d, -, e1, e2⟩ := cjkConsts_listed x h
        rw [e1] at hh
        have : d = c := by simpa using hh
        subst this
        exact absurd (listed_square e2) hc
    · rintro ⟨h, hh⟩
      exact ⟨.inl h, hh⟩

/-- C48 with the preset: the table `Table::builder().preset().add_corr(&CJK_COMPATIBILITIES)`. -/
theorem C48_preset_with_cjk (σ τ : Oracle) :
    ∃ ch, Chanoma.fromTable ((TableBuilder.new.preset σ).addCorr σ (cjkItems τ)).build = .ok ch ∧
      ∀ σs debug text, ch.normalize σs debug text = .ok (text.map fun c =>
        if IsSquare c then squareHead c else presetFold c) := by
  obtain ⟨ch, h1, h2⟩ := C48_first_character σ τ (TableBuilder.new.preset σ).build
    (preset_nonempty σ) (corrAdd_ssorted _ _ _) (by
      intro i hi c hc
      rw [mem_presetTable] at hi
      have := (by decide +kernel : ∀ i ∈ presetConsts, ∀ c ∈ i.from.head?, ¬ IsSquare c) i hi c
      exact this hc)
  refine ⟨ch, h1, fun σs debug text => ?_⟩
  rw [h2]
  congr 1
  apply List.map_congr_left
  intro c _
  split
  · rfl
  · have := preset_substitute σ [c]
    simpa [substitute] using this

/-- C48 refuted: no square at all is expanded, in any table. -/
theorem C48_never_expanded (t : Table) (ch : Chanoma) (hch : Chanoma.fromTable t = .ok ch)
    (c : Char) (hc : IsSquare c) (σs : Nat → Oracle) (debug : Bool) (pre post : Str) :
    ch.normalize σs debug (pre ++ c :: post) ≠ .ok (pre ++ unicodeExpansion c ++ post) := by
  obtain ⟨out, h1, h2, -⟩ := C01_pointwise t ch hch σs debug (pre ++ c :: post)
  rw [h1]
  intro h
  cases h
  have := square_cases (P := fun c => 2 ≤ (unicodeExpansion c).length) (by decide +kernel) hc
  simp at h2
  omega

/-- `㎞` becomes `k`, `㎣` becomes `m`. -/
example : (Chanoma.fromTable ((TableBuilder.new.preset .insertion).addCorr .insertion
      (cjkItems .insertion)).build >>= fun c => c.normalize (fun _ => .insertion) false (c! "５㎞㎣㎤")) =
    .ok (c! "5km㎤") := by
  obtain ⟨ch, h1, h2⟩ := C48_preset_with_cjk .insertion .insertion
  rw [h1, Outcome.ok_bind, h2]
  decide +kernel

end Chanoma
