import Verif.Spec.Order
/-! # UTF-8 byte order is code point order -/

namespace Chanoma

/-- `l` and `m` first differ at a position where `l` is smaller. -/
def diffLt : List UInt8 → List UInt8 → Bool
  | x :: xs, y :: ys => decide (x < y) || (decide (x = y) && diffLt xs ys)
  | _, _ => false

theorem bytesLe_of_diffLt : ∀ {l m : List UInt8} (u v : List UInt8), diffLt l m = true →
    bytesLe (l ++ u) (m ++ v) = true ∧ bytesLe (m ++ v) (l ++ u) = false
  | [], _, _, _, h => by simp [diffLt] at h
  | _ :: _, [], _, _, h => by simp [diffLt] at h
  | x :: xs, y :: ys, u, v, h => by
    simp only [diffLt, Bool.or_eq_true, decide_eq_true_eq, Bool.and_eq_true] at h
    rcases h with h | ⟨rfl, h⟩
    · have h2 : ¬ y < x := by
        intro h3; exact absurd (UInt8.lt_trans h h3) (UInt8.lt_irrefl _)
      simp [bytesLe, h, h2]
    · have := bytesLe_of_diffLt u v h
      simp [bytesLe, this]

theorem ofNat_lt_iff {a b : Nat} (ha : a < 256) (hb : b < 256) :
    UInt8.ofNat a < UInt8.ofNat b ↔ a < b := by
  rw [UInt8.lt_iff_toNat_lt, UInt8.toNat_ofNat', UInt8.toNat_ofNat', Nat.mod_eq_of_lt ha,
    Nat.mod_eq_of_lt hb]

theorem ofNat_eq_iff {a b : Nat} (ha : a < 256) (hb : b < 256) :
    UInt8.ofNat a = UInt8.ofNat b ↔ a = b := by
  rw [← UInt8.toNat_inj, UInt8.toNat_ofNat', UInt8.toNat_ofNat', Nat.mod_eq_of_lt ha,
    Nat.mod_eq_of_lt hb]

theorem digits64 (m : Nat) : ∃ a b c d : Nat, m % 64 = a ∧ m / 64 % 64 = b ∧ m / 4096 % 64 = c ∧
    m / 262144 = d ∧ m / 64 = b + 64 * c + 4096 * d ∧ m / 4096 = c + 64 * d ∧
    m = a + 64 * b + 4096 * c + 262144 * d ∧ a < 64 ∧ b < 64 ∧ c < 64 :=
  ⟨m % 64, m / 64 % 64, m / 4096 % 64, m / 262144, rfl, rfl, rfl, rfl, by omega, by omega,
    by omega, by omega, by omega, by omega⟩

theorem diffLt_encode {a b : Char} (h : a.toNat < b.toNat) :
    diffLt (String.utf8EncodeChar a) (String.utf8EncodeChar b) = true := by
  have hb : b.toNat < 0x110000 := by
    have := b.valid
    rcases this with h | h
    · exact Nat.lt_trans h (by decide)
    · exact h.2
  have ea : a.val.toNat = a.toNat := rfl
  have eb : b.val.toNat = b.toNat := rfl
  unfold String.utf8EncodeChar
  rw [ea, eb]
  generalize a.toNat = m at *
  generalize b.toNat = n at *
  clear ea eb
  obtain ⟨a0, a1, a2, a3, e0, e1, e2, e3, e4, e5, e6, l0, l1, l2⟩ := digits64 m
  obtain ⟨b0, b1, b2, b3, f0, f1, f2, f3, f4, f5, f6, k0, k1, k2⟩ := digits64 n
  have qa : a3 % 8 = a3 := by omega
  have qb : b3 % 8 = b3 := by omega
  simp only
  (repeat' split) <;>
  simp only [diffLt, Bool.or_eq_true, Bool.and_eq_true, decide_eq_true_eq, Bool.or_false,
    Bool.and_false] <;> (try omega) <;>
  (repeat rw [ofNat_lt_iff (by omega) (by omega)]) <;>
  (repeat rw [ofNat_eq_iff (by omega) (by omega)]) <;>
  (try rw [e0, f0]) <;> (try rw [e1, f1]) <;> (try rw [e2, f2]) <;> (try rw [e3, f3]) <;>
  (try rw [e4, f4]) <;> (try rw [e5, f5]) <;>
  (try rw [qa, qb]) <;> omega

theorem bytesLe_append_left (p u v : List UInt8) :
    bytesLe (p ++ u) (p ++ v) = bytesLe u v := by
  induction p with
  | nil => rfl
  | cons x p ih => simp [bytesLe, ih]

theorem encode_ne_nil (c : Char) : String.utf8EncodeChar c ≠ [] := by
  unfold String.utf8EncodeChar
  simp only
  (repeat' split) <;> simp

theorem strBytes_cons (c : Char) (s : Str) :
    strBytes (c :: s) = String.utf8EncodeChar c ++ strBytes s := by simp [strBytes]

theorem toNat_inj {a b : Char} (h : a.toNat = b.toNat) : a = b :=
  Char.ext (UInt32.toNat_inj.mp h)

theorem strLe_iff_lexLe : ∀ (a b : Str), strLe a b = true ↔ LexLe a b
  | [], b => by
    constructor
    · intro _; exact .nil b
    · intro _; simp [strLe, strBytes, bytesLe]
  | c :: as, [] => by
    constructor
    · intro h
      simp only [strLe, strBytes_cons] at h
      cases he : String.utf8EncodeChar c with
      | nil => exact absurd he (encode_ne_nil c)
      | cons x xs => rw [he] at h; simp [strBytes, bytesLe] at h
    · intro h; cases h
  | a :: as, b :: bs => by
    simp only [strLe, strBytes_cons]
    rcases Nat.lt_trichotomy a.toNat b.toNat with h | h | h
    · constructor
      · intro _; exact .lt as bs h
      · intro _; exact (bytesLe_of_diffLt _ _ (diffLt_encode h)).1
    · obtain rfl := toNat_inj h
      rw [bytesLe_append_left]
      have ih := strLe_iff_lexLe as bs
      simp only [strLe] at ih
      rw [ih]
      constructor
      · exact .cons
      · intro h
        cases h with
        | lt _ _ h => omega
        | cons h => exact h
    · constructor
      · intro h2
        rw [(bytesLe_of_diffLt _ _ (diffLt_encode h)).2] at h2
        exact absurd h2 (by decide)
      · intro h2
        cases h2 with
        | lt _ _ h2 => omega
        | cons h2 => omega

theorem LexLe.refl : ∀ a : Str, LexLe a a
  | [] => .nil _
  | _ :: as => .cons (LexLe.refl as)

theorem LexLe.total : ∀ a b : Str, LexLe a b ∨ LexLe b a
  | [], b => .inl (.nil b)
  | a :: as, [] => .inr (.nil _)
  | a :: as, b :: bs => by
    rcases Nat.lt_trichotomy a.toNat b.toNat with h | h | h
    · exact .inl (.lt _ _ h)
    · obtain rfl := toNat_inj h
      exact (LexLe.total as bs).imp .cons .cons
    · exact .inr (.lt _ _ h)

theorem LexLe.antisymm : ∀ {a b : Str}, LexLe a b → LexLe b a → a = b
  | [], [], _, _ => rfl
  | [], _ :: _, _, h => by cases h
  | _ :: _, [], h, _ => by cases h
  | a :: as, b :: bs, h1, h2 => by
    cases h1 with
    | lt _ _ h1 => cases h2 with
      | lt _ _ h2 => omega
      | cons h2 => omega
    | cons h1 => cases h2 with
      | lt _ _ h2 => omega
      | cons h2 => rw [LexLe.antisymm h1 h2]

theorem LexLe.trans : ∀ {a b c : Str}, LexLe a b → LexLe b c → LexLe a c
  | [], _, c, _, _ => .nil c
  | _ :: _, [], _, h, _ => by cases h
  | _ :: _, _ :: _, [], _, h => by cases h
  | a :: as, b :: bs, c :: cs, h1, h2 => by
    cases h1 with
    | lt _ _ h1 => cases h2 with
      | lt _ _ h2 => exact .lt _ _ (by omega)
      | cons h2 => exact .lt _ _ h1
    | cons h1 => cases h2 with
      | lt _ _ h2 => exact .lt _ _ h2
      | cons h2 => exact .cons (LexLe.trans h1 h2)

theorem Item.le_iff (a b : Item) : a.le b = true ↔ ItemLe a b := by
  unfold Item.le ItemLe
  split
  · rename_i h; simp [h, strLe_iff_lexLe]
  · rename_i h; simp [h, strLe_iff_lexLe]

theorem Item.ext' {a b : Item} (h1 : a.from = b.from) (h2 : a.to = b.to) : a = b := by
  cases a; cases b; simp_all

theorem ItemLe.total (a b : Item) : ItemLe a b ∨ ItemLe b a := by
  unfold ItemLe
  by_cases h : a.from = b.from
  · rcases LexLe.total a.to b.to with h2 | h2
    · exact .inl (.inr ⟨h, h2⟩)
    · exact .inr (.inr ⟨h.symm, h2⟩)
  · rcases LexLe.total a.from b.from with h2 | h2
    · exact .inl (.inl ⟨h2, h⟩)
    · exact .inr (.inl ⟨h2, fun e => h e.symm⟩)

theorem ItemLe.refl (a : Item) : ItemLe a a := .inr ⟨rfl, LexLe.refl _⟩

theorem ItemLe.antisymm {a b : Item} (h1 : ItemLe a b) (h2 : ItemLe b a) : a = b := by
  rcases h1 with ⟨h1, n1⟩ | ⟨e1, h1⟩ <;> rcases h2 with ⟨h2, n2⟩ | ⟨e2, h2⟩
  · exact absurd (h1.antisymm h2) n1
  · exact absurd e2.symm n1
  · exact absurd e1.symm n2
  · exact Item.ext' e1 (h1.antisymm h2)

theorem ItemLe.trans {a b c : Item} (h1 : ItemLe a b) (h2 : ItemLe b c) : ItemLe a c := by
  rcases h1 with ⟨h1, n1⟩ | ⟨e1, h1⟩ <;> rcases h2 with ⟨h2, n2⟩ | ⟨e2, h2⟩
  · refine .inl ⟨h1.trans h2, fun e => ?_⟩
    rw [e] at h1
    exact n2 (h2.antisymm h1)
  · rw [e2] at h1 n1; exact .inl ⟨h1, n1⟩
  · rw [← e1] at h2 n2; exact .inl ⟨h2, n2⟩
  · exact .inr ⟨e1.trans e2, h1.trans h2⟩

end Chanoma
