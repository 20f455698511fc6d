import Verif.Proofs.Order
/-! # UTF-8 decoding inverts encoding -/

namespace Chanoma

theorem utf8Head_sound {b : List UInt8} {c : Char} {rest : List UInt8}
    (h : utf8Head b = some (c, rest)) : b = String.utf8EncodeChar c ++ rest := by
  cases b with
  | nil => simp [utf8Head] at h
  | cons x xs =>
    simp only [utf8Head] at h
    split at h
    · rename_i he
      simp only [Option.some.injEq, Prod.mk.injEq] at h
      obtain ⟨rfl, rfl⟩ := h
      rw [he, List.take_append_drop]
    · simp at h

theorem ofNat_toNat_char (c : Char) : Char.ofNat c.toNat = c := Char.ofNat_toNat c

theorem toNat_ofNat8 {a : Nat} (ha : a < 256) : (UInt8.ofNat a).toNat = a := by
  rw [UInt8.toNat_ofNat', Nat.mod_eq_of_lt ha]

theorem lt_ofNat_iff {a : Nat} (ha : a < 256) (k : UInt8) : UInt8.ofNat a < k ↔ a < k.toNat := by
  rw [UInt8.lt_iff_toNat_lt, toNat_ofNat8 ha]

theorem char_lt (c : Char) : c.toNat < 0x110000 := by
  rcases c.valid with h | h
  · exact Nat.lt_trans h (by decide)
  · exact h.2

/-- The first byte tells the length, and the bytes tell the number. -/
theorem encode_shape (c : Char) :
    ∃ x xs, String.utf8EncodeChar c = x :: xs ∧ utf8SeqLen x = xs.length + 1 ∧
      utf8Number (x :: xs) = c.toNat := by
  have hb := char_lt c
  have eb : c.val.toNat = c.toNat := rfl
  unfold String.utf8EncodeChar
  rw [eb]
  generalize c.toNat = m at *
  obtain ⟨a0, a1, a2, a3, e0, e1, e2, e3, e4, e5, e6, l0, l1, l2⟩ := digits64 m
  simp only
  (repeat' split) <;>
    refine ⟨_, _, rfl, ?_, ?_⟩ <;>
    simp only [utf8SeqLen, utf8Number, List.length_cons, List.length_nil]
  all_goals
    simp only [UInt8.lt_iff_toNat_lt, UInt8.toNat_ofNat', show (0x80 : UInt8).toNat = 128 from rfl,
      show (0xE0 : UInt8).toNat = 224 from rfl, show (0xF0 : UInt8).toNat = 240 from rfl]
    try (repeat' split)
    all_goals omega

theorem utf8Head_encode (c : Char) (rest : List UInt8) :
    utf8Head (String.utf8EncodeChar c ++ rest) = some (c, rest) := by
  obtain ⟨x, xs, h1, h2, h3⟩ := encode_shape c
  rw [h1, List.cons_append]
  have e : (x :: (xs ++ rest)).take (utf8SeqLen x) = x :: xs := by
    rw [h2]; simp
  have e' : (x :: (xs ++ rest)).drop (utf8SeqLen x) = rest := by
    rw [h2]; simp
  simp only [utf8Head, e, e', h3, ofNat_toNat_char, h1, if_true]

theorem strFromUtf8Go_sound : ∀ {n : Nat} {b : List UInt8} {s : Str},
    strFromUtf8Go n b = some s → strBytes s = b
  | _, [], s, h => by simp [strFromUtf8Go] at h; subst h; rfl
  | 0, _ :: _, _, h => by simp [strFromUtf8Go] at h
  | n + 1, x :: xs, s, h => by
    simp only [strFromUtf8Go, Option.bind_eq_bind, Option.bind_eq_some_iff, Option.pure_def,
      Option.some.injEq, Prod.exists] at h
    obtain ⟨c, rest, h1, t, h2, rfl⟩ := h
    rw [strBytes_cons, strFromUtf8Go_sound h2, ← utf8Head_sound h1]

theorem strFromUtf8Go_encode : ∀ (s : Str) (n : Nat), s.length ≤ n →
    strFromUtf8Go n (strBytes s) = some s
  | [], n, _ => by cases n <;> rfl
  | c :: s, 0, h => by simp at h
  | c :: s, n + 1, h => by
    rw [strBytes_cons]
    obtain ⟨x, xs, h1, h2, h3⟩ := encode_shape c
    have := utf8Head_encode c (strBytes s)
    rw [h1] at this ⊢
    rw [List.cons_append] at this ⊢
    simp [strFromUtf8Go, this, strFromUtf8Go_encode s n (by simpa using h)]

theorem length_le_strBytes (s : Str) : s.length ≤ (strBytes s).length := by
  induction s with
  | nil => simp
  | cons c s ih =>
    rw [strBytes_cons, List.length_append]
    have := List.length_pos_iff.mpr (encode_ne_nil c)
    simp only [List.length_cons]; omega

theorem strFromUtf8_strBytes (s : Str) : strFromUtf8 (strBytes s) = some s :=
  strFromUtf8Go_encode s _ (length_le_strBytes s)

/-- Decoding succeeds exactly on encodings, and inverts them. -/
theorem strFromUtf8_eq_some_iff (b : List UInt8) (s : Str) :
    strFromUtf8 b = some s ↔ strBytes s = b :=
  ⟨strFromUtf8Go_sound, fun h => h ▸ strFromUtf8_strBytes s⟩

theorem strBytes_inj {s t : Str} (h : strBytes s = strBytes t) : s = t := by
  have := strFromUtf8_strBytes s
  rw [h, strFromUtf8_strBytes] at this
  exact (Option.some.inj this).symm

theorem strBytes_append (s t : Str) : strBytes (s ++ t) = strBytes s ++ strBytes t := by
  simp [strBytes]

/-- An ASCII character is encoded by itself. -/
theorem encode_ascii {c : Char} (h : c.toNat < 128) :
    String.utf8EncodeChar c = [UInt8.ofNat c.toNat] := by
  have eb : c.val.toNat = c.toNat := rfl
  unfold String.utf8EncodeChar
  rw [eb]
  simp only
  rw [if_pos (by omega)]

/-- The bytes of another character are not ASCII. -/
theorem encode_nonascii {c : Char} (h : 128 ≤ c.toNat) :
    ∀ b ∈ String.utf8EncodeChar c, 128 ≤ b.toNat := by
  have hb := char_lt c
  have eb : c.val.toNat = c.toNat := rfl
  unfold String.utf8EncodeChar
  rw [eb]
  generalize c.toNat = m at *
  simp only
  (repeat' split) <;> simp only [List.mem_cons, List.not_mem_nil, or_false, forall_eq_or_imp, forall_eq] <;>
    (repeat rw [toNat_ofNat8 (by omega)]) <;> omega

end Chanoma
