import Verif.Props.Errors
import Verif.Spec.Display
/-! # C53: how paths that are not UTF-8 are shown, and which failures Python sees -/

namespace Chanoma

theorem strBytes_one (c : Char) : strBytes [c] = String.utf8EncodeChar c := by simp [strBytes]

/-- The second byte fits the first one, in an encoding of three or four bytes. -/
def secondFits (a b : UInt8) : Bool :=
  if a = 0xE0 then 0xA0 ≤ b && b ≤ 0xBF
  else if a = 0xED then 0x80 ≤ b && b ≤ 0x9F
  else if a = 0xF0 then 0x90 ≤ b && b ≤ 0xBF
  else if a = 0xF4 then 0x80 ≤ b && b ≤ 0x8F
  else (0xE1 ≤ a && a ≤ 0xF3) && 0x80 ≤ b && b ≤ 0xBF

theorem secondFits_iff (a b : UInt8) : secondFits a b = true ↔
    (a.toNat = 0xE0 ∧ 0xA0 ≤ b.toNat ∧ b.toNat ≤ 0xBF) ∨
    (a.toNat = 0xED ∧ 0x80 ≤ b.toNat ∧ b.toNat ≤ 0x9F) ∨
    (a.toNat = 0xF0 ∧ 0x90 ≤ b.toNat ∧ b.toNat ≤ 0xBF) ∨
    (a.toNat = 0xF4 ∧ 0x80 ≤ b.toNat ∧ b.toNat ≤ 0x8F) ∨
    (a.toNat ≠ 0xE0 ∧ a.toNat ≠ 0xED ∧ a.toNat ≠ 0xF0 ∧ a.toNat ≠ 0xF4 ∧
      0xE1 ≤ a.toNat ∧ a.toNat ≤ 0xF3 ∧ 0x80 ≤ b.toNat ∧ b.toNat ≤ 0xBF) := by
  unfold secondFits
  simp only [← UInt8.toNat_inj, show (0xE0 : UInt8).toNat = 0xE0 from rfl,
    show (0xED : UInt8).toNat = 0xED from rfl, show (0xF0 : UInt8).toNat = 0xF0 from rfl,
    show (0xF4 : UInt8).toNat = 0xF4 from rfl]
  (repeat' split) <;>
  simp only [Bool.and_eq_true, decide_eq_true_eq, UInt8.le_iff_toNat_le,
    show (0xA0 : UInt8).toNat = 0xA0 from rfl, show (0xBF : UInt8).toNat = 0xBF from rfl,
    show (0x80 : UInt8).toNat = 0x80 from rfl, show (0x9F : UInt8).toNat = 0x9F from rfl,
    show (0x90 : UInt8).toNat = 0x90 from rfl, show (0x8F : UInt8).toNat = 0x8F from rfl,
    show (0xE1 : UInt8).toNat = 0xE1 from rfl, show (0xF3 : UInt8).toNat = 0xF3 from rfl] <;> omega

/-- The bytes of a character have one of four shapes. -/
theorem encode_cases (c : Char) (l : List UInt8) (h : String.utf8EncodeChar c = l) :
    (∃ a, l = [a]) ∨ (∃ a b, l = [a, b] ∧ a.toNat < 0xE0) ∨
    (∃ a b d, l = [a, b, d] ∧ a.toNat < 0xF0 ∧ secondFits a b = true) ∨
    (∃ a b d e, l = [a, b, d, e] ∧ 0xF0 ≤ a.toNat ∧ secondFits a b = true ∧
      0x80 ≤ d.toNat ∧ d.toNat ≤ 0xBF) := by
  subst h
  have hv := c.valid
  have hb := char_lt c
  have eb : c.val.toNat = c.toNat := rfl
  have hs : c.toNat < 0xD800 ∨ 0xDFFF < c.toNat := by
    rcases hv with h | h
    · exact .inl h
    · exact .inr h.1
  unfold String.utf8EncodeChar
  rw [eb]
  generalize c.toNat = m at *
  obtain ⟨a0, a1, a2, a3, e0, e1, e2, e3, e4, e5, e6, l0, l1, l2⟩ := digits64 m
  simp only [secondFits_iff]
  split
  · exact .inl ⟨_, rfl⟩
  split
  · refine .inr (.inl ⟨_, _, rfl, ?_⟩)
    rw [toNat_ofNat8 (by omega)]
    omega
  split
  · refine .inr (.inr (.inl ⟨_, _, _, rfl, ?_⟩))
    rw [toNat_ofNat8 (by omega), toNat_ofNat8 (by omega)]
    constructor <;> omega
  · refine .inr (.inr (.inr ⟨_, _, _, _, rfl, ?_⟩))
    rw [toNat_ofNat8 (by omega), toNat_ofNat8 (by omega), toNat_ofNat8 (by omega)]
    refine ⟨by omega, ?_, by omega, by omega⟩
    omega

theorem exists_char (m : Nat) (h : m < 0xD800 ∨ 0xDFFF < m ∧ m < 0x110000) :
    ∃ c : Char, c.toNat = m := by
  refine ⟨Char.ofNat m, ?_⟩
  have hv : m.isValidChar := h
  unfold Char.ofNat
  rw [dif_pos hv]
  rfl

theorem cutOff_two {a b : UInt8} (h : secondFits a b = true) : CutOff [a, b] := by
  have ha : a.toNat < 256 := a.toNat_lt
  rw [secondFits_iff] at h
  by_cases h4 : a.toNat < 0xF0
  · obtain ⟨c, hc⟩ := exists_char (a.toNat % 16 * 4096 + b.toNat % 64 * 64) (by omega)
    refine ⟨c, [UInt8.ofNat (c.toNat % 64 + 128)], by simp, ?_⟩
    have eb : c.val.toNat = c.toNat := rfl
    rw [strBytes_one]
    unfold String.utf8EncodeChar
    rw [eb]
    simp only
    rw [if_neg (by omega), if_neg (by omega), if_pos (by omega)]
    simp only [List.cons_append, List.nil_append, List.cons.injEq, and_true]
    refine ⟨UInt8.toNat_inj.mp ?_, UInt8.toNat_inj.mp ?_⟩ <;> rw [toNat_ofNat8 (by omega)] <;> omega
  · obtain ⟨c, hc⟩ := exists_char (a.toNat % 8 * 262144 + b.toNat % 64 * 4096) (by omega)
    refine ⟨c, [UInt8.ofNat (c.toNat / 64 % 64 + 128), UInt8.ofNat (c.toNat % 64 + 128)], by simp, ?_⟩
    have eb : c.val.toNat = c.toNat := rfl
    rw [strBytes_one]
    unfold String.utf8EncodeChar
    rw [eb]
    simp only
    rw [if_neg (by omega), if_neg (by omega), if_neg (by omega)]
    simp only [List.cons_append, List.nil_append, List.cons.injEq, and_true]
    refine ⟨UInt8.toNat_inj.mp ?_, UInt8.toNat_inj.mp ?_⟩ <;> rw [toNat_ofNat8 (by omega)] <;> omega

theorem cutOff_three {a b d : UInt8} (h : secondFits a b = true) (h4 : 0xF0 ≤ a.toNat)
    (h1 : 0x80 ≤ d.toNat) (h2 : d.toNat ≤ 0xBF) : CutOff [a, b, d] := by
  have ha : a.toNat < 256 := a.toNat_lt
  rw [secondFits_iff] at h
  obtain ⟨c, hc⟩ := exists_char (a.toNat % 8 * 262144 + b.toNat % 64 * 4096 + d.toNat % 64 * 64) (by omega)
  refine ⟨c, [UInt8.ofNat (c.toNat % 64 + 128)], by simp, ?_⟩
  have eb : c.val.toNat = c.toNat := rfl
  rw [strBytes_one]
  unfold String.utf8EncodeChar
  rw [eb]
  simp only
  rw [if_neg (by omega), if_neg (by omega), if_neg (by omega)]
  simp only [List.cons_append, List.nil_append, List.cons.injEq, and_true]
  refine ⟨UInt8.toNat_inj.mp ?_, UInt8.toNat_inj.mp ?_, UInt8.toNat_inj.mp ?_⟩ <;>
    rw [toNat_ofNat8 (by omega)] <;> omega

/-- What is cut off after two or more bytes. -/
theorem cutOff_long {p : List UInt8} (h : CutOff p) (hl : 2 ≤ p.length) :
    ∃ a b, secondFits a b = true ∧ (p = [a, b] ∨
      ∃ d, p = [a, b, d] ∧ 0xF0 ≤ a.toNat ∧ 0x80 ≤ d.toNat ∧ d.toNat ≤ 0xBF) := by
  obtain ⟨c, t, ht, he⟩ := h
  rw [strBytes_one] at he
  match p, hl with
  | a :: b :: p, _ =>
    obtain ⟨a', h⟩ | ⟨a', b', h, -⟩ | ⟨a', b', d', h, -, hs⟩ | ⟨a', b', d', e', h, h4, hs, h1, h2⟩ :=
      encode_cases c _ he
    · simp at h
    · simp only [List.cons_append, List.cons.injEq, List.append_eq_nil_iff] at h
      exact absurd h.2.2.2 ht
    · simp only [List.cons_append, List.cons.injEq] at h
      obtain ⟨rfl, rfl, h⟩ := h
      refine ⟨a, b, hs, .inl ?_⟩
      cases p with
      | nil => rfl
      | cons x p =>
        simp only [List.cons_append, List.cons.injEq, List.append_eq_nil_iff] at h
        exact absurd h.2.2 ht
    · simp only [List.cons_append, List.cons.injEq] at h
      obtain ⟨rfl, rfl, h⟩ := h
      refine ⟨a, b, hs, ?_⟩
      match p with
      | [] => exact .inl rfl
      | [x] =>
        simp only [List.cons_append, List.cons.injEq] at h
        obtain ⟨rfl, -⟩ := h
        exact .inr ⟨x, rfl, h4, h1, h2⟩
      | x :: y :: p =>
        simp only [List.cons_append, List.cons.injEq, List.append_eq_nil_iff] at h
        exact absurd h.2.2.2 ht

theorem utf8InvalidLen_two (a b : UInt8) (rest : List UInt8) :
    utf8InvalidLen (a :: b :: rest) = if secondFits a b then
      (match rest with
        | d :: _ => if 0xF0 ≤ a && 0x80 ≤ d && d ≤ 0xBF then 3 else 2
        | [] => 2)
      else 1 := by
  rfl

theorem utf8Head_none {b : List UInt8} (h : utf8Head b = none) : ¬ StartsWithChar b := by
  rintro ⟨c, t, rfl⟩
  rw [strBytes_one, utf8Head_encode] at h
  cases h

/-- The length of what is replaced. -/
theorem invalidLen_spec {b : List UInt8} (hb : b ≠ []) :
    ((b.take (utf8InvalidLen b)).length = utf8InvalidLen b ∧ 1 ≤ utf8InvalidLen b) ∧
    ((b.take (utf8InvalidLen b)).length = 1 ∨ CutOff (b.take (utf8InvalidLen b))) ∧
    ∀ p t, b = p ++ t → CutOff p → p.length ≤ utf8InvalidLen b := by
  match b, hb with
  | [a], _ =>
    refine ⟨⟨rfl, Nat.le_refl _⟩, .inl rfl, fun p t h _ => ?_⟩
    have := congrArg List.length h
    simp only [List.length_append, List.length_cons, List.length_nil] at this
    show p.length ≤ 1
    omega
  | a :: b :: rest, _ =>
    rw [utf8InvalidLen_two]
    have bound : ∀ p t, a :: b :: rest = p ++ t → CutOff p → 2 ≤ p.length →
        secondFits a b = true ∧ (p.length = 2 ∨ ∃ d r, rest = d :: r ∧ p.length = 3 ∧
          0xF0 ≤ a.toNat ∧ 0x80 ≤ d.toNat ∧ d.toNat ≤ 0xBF) := by
      intro p t h hc hl
      obtain ⟨a', b', hs, rfl | ⟨d, rfl, h3, h1, h2⟩⟩ := cutOff_long hc hl
      · simp only [List.cons_append, List.nil_append, List.cons.injEq] at h
        obtain ⟨rfl, rfl, -⟩ := h
        exact ⟨hs, .inl rfl⟩
      · simp only [List.cons_append, List.nil_append, List.cons.injEq] at h
        obtain ⟨rfl, rfl, h⟩ := h
        exact ⟨hs, .inr ⟨d, t, h, rfl, h3, h1, h2⟩⟩
    cases hs : secondFits a b with
    | false =>
      refine ⟨⟨rfl, Nat.le_refl _⟩, .inl rfl, fun p t h hc => ?_⟩
      rw [hs] at bound
      simp only [Bool.false_eq_true, if_false]
      refine Decidable.byContradiction fun hl => ?_
      exact absurd (bound p t h hc (by omega)).1 (by simp)
    | true =>
      simp only [if_true]
      cases rest with
      | nil =>
        refine ⟨⟨rfl, show 1 ≤ 2 by decide⟩, .inr (cutOff_two hs), fun p t h hc => ?_⟩
        have := congrArg List.length h
        simp only [List.length_append, List.length_cons, List.length_nil] at this
        show p.length ≤ 2
        omega
      | cons d r =>
        simp only
        have e : (0xF0 ≤ a && 0x80 ≤ d && d ≤ 0xBF) = true ↔
            0xF0 ≤ a.toNat ∧ 0x80 ≤ d.toNat ∧ d.toNat ≤ 0xBF := by
          simp only [Bool.and_eq_true, decide_eq_true_eq, UInt8.le_iff_toNat_le,
            show (0xF0 : UInt8).toNat = 0xF0 from rfl, show (0x80 : UInt8).toNat = 0x80 from rfl,
            show (0xBF : UInt8).toNat = 0xBF from rfl, and_assoc]
        split
        · rename_i h3
          obtain ⟨h3, h1, h2⟩ := e.mp h3
          refine ⟨⟨rfl, by decide⟩, .inr (cutOff_three hs h3 h1 h2), fun p t h hc => ?_⟩
          refine Decidable.byContradiction fun hl => ?_
          obtain ⟨-, h | ⟨_, _, _, h, -⟩⟩ := bound p t h hc (by omega) <;> omega
        · rename_i h3
          refine ⟨⟨rfl, by decide⟩, .inr (cutOff_two hs), fun p t h hc => ?_⟩
          refine Decidable.byContradiction fun hl => ?_
          obtain ⟨-, h | ⟨_, _, h0, h, h4⟩⟩ := bound p t h hc (by omega)
          · omega
          · simp only [List.cons.injEq] at h0
            obtain ⟨rfl, rfl⟩ := h0
            exact h3 (e.mpr h4)

theorem pathDisplayGo_shown : ∀ (n : Nat) (b : OsStr), b.length ≤ n → Shown b (pathDisplayGo n b)
  | n, [], _ => by cases n <;> exact .nil
  | 0, _ :: _, h => by simp at h
  | n + 1, x :: xs, h => by
    rw [pathDisplayGo]
    cases hh : utf8Head (x :: xs) with
    | some cr =>
      obtain ⟨c, rest⟩ := cr
      simp only
      have e := utf8Head_sound hh
      rw [e, ← strBytes_one]
      refine .char c (pathDisplayGo_shown n rest ?_)
      have h1 := congrArg List.length e
      have h2 := List.length_pos_iff.mpr (encode_ne_nil c)
      rw [List.length_append] at h1
      omega
    | none =>
      simp only
      obtain ⟨⟨h1, h2⟩, h3, h4⟩ := invalidLen_spec (b := x :: xs) (by simp)
      generalize utf8InvalidLen (x :: xs) = k at *
      have hd := List.take_append_drop k (x :: xs)
      have hs := utf8Head_none hh
      have hr : ((x :: xs).drop k).length ≤ n := by
        rw [List.length_drop]; simp only [List.length_cons] at h ⊢; omega
      have := pathDisplayGo_shown n _ hr
      generalize (x :: xs).take k = bad at *
      generalize (x :: xs).drop k = rest at *
      rw [← hd] at hs h4 ⊢
      refine .bad hs ?_ (fun p t e hc => h1 ▸ h4 p t e hc) this
      rcases h3 with h3 | h3
      · exact .inl h3
      · refine .inr ⟨?_, h3⟩
        rintro rfl
        simp at h1
        omega
    · simp

theorem shown_unique {b : List UInt8} {s s' : Str} (h : Shown b s) (h' : Shown b s') : s = s' := by
  induction h generalizing s' with
  | nil =>
    generalize hb : ([] : List UInt8) = b at h'
    cases h' with
    | nil => rfl
    | char c _ =>
      rw [strBytes_one] at hb
      exact absurd (List.append_eq_nil_iff.mp hb.symm).1 (encode_ne_nil c)
    | bad _ h2 _ _ =>
      have := (List.append_eq_nil_iff.mp hb.symm).1
      subst this
      simp at h2
  | @char c rest s _ ih =>
    generalize hb : strBytes [c] ++ rest = b at h'
    cases h' with
    | nil =>
      rw [strBytes_one] at hb
      exact absurd (List.append_eq_nil_iff.mp hb).1 (encode_ne_nil c)
    | @char c' rest' s'' h'' =>
      have e := utf8Head_encode c rest
      rw [← strBytes_one, hb, strBytes_one, utf8Head_encode] at e
      simp only [Option.some.injEq, Prod.mk.injEq] at e
      obtain ⟨rfl, rfl⟩ := e
      rw [ih h'']
    | bad h1 _ _ _ => exact absurd ⟨c, rest, hb.symm⟩ h1
  | @bad bad rest s h1 h2 h3 _ ih =>
    generalize hb : bad ++ rest = b at h'
    cases h' with
    | nil =>
      have := (List.append_eq_nil_iff.mp hb).1
      subst this
      simp at h2
    | @char c' rest' s'' h'' => exact absurd ⟨c', rest', hb⟩ h1
    | @bad bad' rest' s'' h1' h2' h3' h'' =>
      have hl : bad.length = bad'.length := by
        have p1 : 1 ≤ bad.length := by
          rcases h2 with h | ⟨h, -⟩
          · omega
          · exact List.length_pos_iff.mpr h
        have p2 : 1 ≤ bad'.length := by
          rcases h2' with h | ⟨h, -⟩
          · omega
          · exact List.length_pos_iff.mpr h
        have a1 : bad.length ≤ bad'.length := by
          rcases h2 with h | ⟨-, h⟩
          · omega
          · exact h3' bad rest hb.symm h
        have a2 : bad'.length ≤ bad.length := by
          rcases h2' with h | ⟨-, h⟩
          · omega
          · exact h3 bad' rest' hb h
        omega
      obtain ⟨rfl, rfl⟩ := List.append_inj hb hl
      rw [ih h'']

/-- C53: how a path is displayed, whatever its bytes: characters as they are, and U+FFFD for each longest
piece that is no character. -/
theorem C53_display_any (b : OsStr) (s : Str) : pathDisplay b = s ↔ Shown b s :=
  ⟨fun h => h ▸ pathDisplayGo_shown _ b (Nat.le_refl _),
    fun h => shown_unique (pathDisplayGo_shown _ b (Nat.le_refl _)) h⟩

/-- C53: the text of the error for an extension that is not UTF-8 names the path as it is shown. -/
theorem C53_extension_not_utf8 (f : ForeignTexts) (σ : Oracle) (w : World) (path ext : OsStr)
    (h : HasExt path ext) (hu : ¬ IsUtf8 ext) :
    ∃ e s, Chanoma.fromConfigFile σ w path = .err e ∧ Shown path s ∧
      e.text f = c! "拡張子の文字列を str に変換できません: " ++ s := by
  obtain ⟨-, -, -, h1, -⟩ := C33_unreadable σ w path
  exact ⟨_, _, h1 ext h hu, (C53_display_any path _).mp rfl, rfl⟩

/-- C53: which failures Python sees as which exception.  `Chanoma(…)` raises an `OSError`, with its text,
for each error of loading the configuration, and a `PanicException` exactly if that panics or if the
table has an empty cell. -/
theorem C53_python_exceptions (f : ForeignTexts) (σ : Oracle) (w : World) (a : PyArgs) :
    (∀ text, (pyChanomaNew σ w a).toPy f = .osError text ↔
      ∃ e, pyBase σ w a = .err e ∧ text = e.text f) ∧
    ((pyChanomaNew σ w a).toPy f = .panicException ↔ pyBase σ w a = .panic ∨
      ∃ c t, pyBase σ w a = .ok c ∧ a.table = some t ∧ ¬ CellsNonEmpty t.items) := by
  obtain ⟨h1, h2, h3, h4⟩ := C46_normalize σ w a
  cases hb : pyBase σ w a with
  | err e =>
    rw [h2 e hb]
    simp only [Outcome.toPy, PyResult.osError.injEq, Outcome.err.injEq, reduceCtorEq, false_and,
      exists_false, or_false, and_true]
    intro text
    exact ⟨fun h => ⟨e, rfl, h.symm⟩, fun ⟨e', he, h⟩ => by rw [h, he]⟩
  | panic =>
    rw [h3 hb]
    simp [Outcome.toPy]
  | ok c =>
    by_cases hn : ∃ t, a.table = some t ∧ ¬ CellsNonEmpty t.items
    · obtain ⟨t, ht, hn⟩ := hn
      rw [h4 c t hb ht hn]
      simp only [Outcome.toPy, reduceCtorEq, false_and, exists_false, iff_self, forall_const, true_and,
        false_or, true_iff]
      exact ⟨c, t, rfl, ht, hn⟩
    · obtain ⟨c', h5, -⟩ := h1 c hb fun t ht => Decidable.byContradiction fun h => hn ⟨t, ht, h⟩
      rw [h5]
      simp only [Outcome.toPy, reduceCtorEq, false_and, exists_false, iff_self, forall_const, true_and,
        false_or, false_iff]
      rintro ⟨c, t, -, h⟩
      exact hn ⟨t, h⟩

/-- C53: a YAML file whose `items` is not a mapping, such as the documented list, raises a
`PanicException` in Python, both as a configuration and as a table. -/
theorem C53_python_wrong_shape (f : ForeignTexts) (σ : Oracle) (w : World) (path : Str) (a : PyArgs)
    (ha : a.configfile = some path)
    (hext : HasExt (strBytes path) (p! "yaml") ∨ HasExt (strBytes path) (p! "yml"))
    (s : List UInt8) (data v : YValue) (hfile : w.entry (strBytes path) = some (.file s))
    (hyaml : w.parseYaml s = some data) (hitems : HasField data (c! "items") v)
    (hv : ∀ l, v ≠ .mapping l) (preset : Bool) :
    (pyChanomaNew σ w a).toPy f = .panicException ∧
    (pyTableNew σ w preset none (some path)).toPy f = .panicException := by
  obtain ⟨h1, h2⟩ := C34_list_format_panics σ w _ hext s data v hfile hyaml hitems hv
  constructor
  · refine (C53_python_exceptions f σ w a).2.mpr (.inl ?_)
    unfold pyBase
    rw [ha]
    exact h1
  · rw [(C46_table_outcome σ w preset none (some path)).2.2.2 path (by simp) rfl h2]
    rfl

example : Shown [0x61, 0xFF, 0xE3, 0x81, 0x62] (c! "a��b") :=
  (C53_display_any _ _).mp (by decide +kernel)
example : CutOff [0xE3, 0x81] := ⟨'あ', [0x82], by simp, by decide +kernel⟩
example : HasExt (p! "/a.c" ++ [0xFF]) (p! "c" ++ [0xFF]) ∧ ¬ IsUtf8 (p! "c" ++ [0xFF]) := by
  refine ⟨⟨p! "a", ⟨p! "/", [], by decide, .inr (by decide), .nil, by decide, by decide, by decide, by decide⟩,
    by decide, by decide⟩, ?_⟩
  rintro ⟨s, h⟩
  have := (strFromUtf8_eq_some_iff _ _).mpr h.symm
  rw [show strFromUtf8 (p! "c" ++ [0xFF]) = none by decide +kernel] at this
  cases this
example : ∃ t : Table, ¬ CellsNonEmpty t.items := by
  refine ⟨(TableBuilder.new.addCorr .insertion [⟨c! "a", []⟩]).build, fun h => ?_⟩
  exact (h ⟨c! "a", []⟩ (by decide +kernel)).2 rfl

/-- The documented list of items, as a configuration file for `C53_python_wrong_shape`. -/
example : ∃ (w : World) (s : List UInt8) (data v : YValue),
    HasExt (strBytes (c! "/c.yaml")) (p! "yaml") ∧ w.entry (strBytes (c! "/c.yaml")) = some (.file s) ∧
    w.parseYaml s = some data ∧ HasField data (c! "items") v ∧ ∀ l, v ≠ .mapping l := by
  refine ⟨.ofFiles [(p! "/c.yaml", .file (p! "items: [{from: a, to: b}]"))]
      (fun _ => some (.mapping [(.string (c! "items"), .sequence [.mapping [
        (.string (c! "from"), .string (c! "a")), (.string (c! "to"), .string (c! "b"))]])])),
    p! "items: [{from: a, to: b}]", _, _, ?_, by decide +kernel, rfl, ⟨[], [], rfl, by simp⟩, by simp⟩
  rw [show strBytes (c! "/c.yaml") = p! "/c.yaml" by decide +kernel]
  exact ⟨p! "c", ⟨p! "/", [], by decide, .inr (by decide), .nil, by decide, by decide, by decide, by decide⟩,
    by decide, by decide⟩

end Chanoma
