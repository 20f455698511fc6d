import Verif.Spec.Rest
import Verif.Props.Again
import Verif.Props.LigatureExact
/-! # C110: when a ligature rule has nothing left to do -/

namespace Chanoma

theorem oneRule_normalize (k v : Str) (σs : Nat → Oracle) (t : Str) :
    (oneRule k v).normalize σs false t = .ok (strReplace k v t) := by
  simp only [oneRule, Chanoma.normalize, Bool.not_false, if_true, List.zipIdx_cons, List.zipIdx_nil, List.foldlM_cons,
    List.foldlM_nil, ModifierKind.modify, one_rule, Outcome.ok_bind, Outcome.pure_eq]

/-! ### How a text is read -/

/-- The text of a reading: `none` stands for the key. -/
def unread (k : Str) : List (Option Char) → Str
  | [] => []
  | none :: I => k ++ unread k I
  | some c :: I => c :: unread k I

def Parsed (k : Str) : List (Option Char) → Prop
  | [] => True
  | none :: I => Parsed k I
  | some c :: I => ¬ k <+: c :: unread k I ∧ Parsed k I

theorem unread_append (k : Str) (I J : List (Option Char)) : unread k (I ++ J) = unread k I ++ unread k J := by
  induction I with
  | nil => rfl
  | cons x I ih => cases x <;> simp [unread, ih]

theorem parsed_exists {k : Str} (hk : k ≠ []) (t : Str) : ∃ I, Parsed k I ∧ unread k I = t := by
  suffices ∀ n, ∀ t : Str, t.length ≤ n → ∃ I, Parsed k I ∧ unread k I = t from this _ t (Nat.le_refl _)
  intro n
  induction n with
  | zero => intro t ht; exact ⟨[], trivial, (List.length_eq_zero_iff.1 (by omega)).symm⟩
  | succ n ih =>
    intro t ht
    cases t with
    | nil => exact ⟨[], trivial, rfl⟩
    | cons c t =>
      by_cases hp : k <+: c :: t
      · obtain ⟨o, ho⟩ := hp
        have hl := congrArg List.length ho
        have := List.length_pos_iff.2 hk
        simp at hl ht
        obtain ⟨I, h1, h2⟩ := ih o (by omega)
        exact ⟨none :: I, h1, by rw [unread, h2, ho]⟩
      · obtain ⟨I, h1, h2⟩ := ih t (by simpa using ht)
        exact ⟨some c :: I, ⟨by rw [h2]; exact hp, h1⟩, by rw [unread, h2]⟩

theorem parsed_replace {k : Str} (hk : k ≠ []) (v : Str) {I : List (Option Char)} (h : Parsed k I) :
    strReplace k v (unread k I) = unread v I := by
  induction I with
  | nil => exact strReplace_nil hk v
  | cons x I ih =>
    cases x with
    | none => rw [unread, strReplace_hit hk, ih h, unread]
    | some c => rw [unread, strReplace_keep hk v h.1, ih h.2, unread]

theorem parsed_tail {k : Str} {x : Option Char} {I : List (Option Char)} (h : Parsed k (x :: I)) : Parsed k I := by
  cases x with
  | none => exact h
  | some c => exact h.2

theorem parsed_front {k : Str} {I J : List (Option Char)} (h : Parsed k (I ++ J)) : Parsed k I := by
  induction I with
  | nil => trivial
  | cons x I ih =>
    cases x with
    | none => exact ih h
    | some c =>
      refine ⟨fun hp => h.1 (hp.trans ?_), ih h.2⟩
      exact ⟨unread k J, by simp [unread_append]⟩

theorem parsed_merge {k : Str} {I J : List (Option Char)} (h : Parsed k (I ++ none :: none :: J)) :
    Parsed k (I ++ none :: J) := by
  induction I with
  | nil => exact h
  | cons x I ih =>
    cases x with
    | none => exact ih h
    | some c =>
      refine ⟨fun hp => h.1 ?_, ih h.2⟩
      have e : ∀ L, c :: unread k (I ++ none :: L) = (c :: unread k I ++ k) ++ unread k L := by
        intro L; simp [unread_append, unread]
      have hp : k <+: c :: unread k (I ++ none :: J) := hp
      show k <+: c :: unread k (I ++ none :: none :: J)
      rw [e] at hp ⊢
      have : k <+: c :: unread k I ++ k :=
        List.prefix_of_prefix_length_le hp (List.prefix_append _ _) (by simp; omega)
      exact this.trans (List.prefix_append _ _)

theorem parsed_smallest {k v : Str} {I : List (Option Char)} (h : Parsed k I) (hi : k <:+: unread v I) :
    ∃ I, Parsed k I ∧ k <:+: unread v I ∧ ∀ J, J.length < I.length → Parsed k J → ¬ k <:+: unread v J := by
  suffices ∀ n I, I.length ≤ n → Parsed k I → k <:+: unread v I → ∃ I, Parsed k I ∧ k <:+: unread v I ∧
      ∀ J, J.length < I.length → Parsed k J → ¬ k <:+: unread v J from this _ I (Nat.le_refl _) h hi
  intro n
  induction n with
  | zero => intro I hn h hi; exact ⟨I, h, hi, fun J hJ => by omega⟩
  | succ n ih =>
    intro I hn h hi
    by_cases hs : ∃ J, J.length < I.length ∧ Parsed k J ∧ k <:+: unread v J
    · obtain ⟨J, h1, h2, h3⟩ := hs
      exact ih J (by omega) h2 h3
    · exact ⟨I, h, hi, fun J h1 h2 h3 => hs ⟨J, h1, h2, h3⟩⟩

theorem unread_length_le {k : Str} (hk : k ≠ []) (I : List (Option Char)) : (unread k I).length ≤ I.length * k.length := by
  have := List.length_pos_iff.2 hk
  induction I with
  | nil => simp [unread]
  | cons x I ih =>
    cases x <;> simp only [unread, List.length_append, List.length_cons, Nat.add_mul, Nat.one_mul] <;> omega

theorem length_le_unread {v : Str} (hv : v ≠ []) (I : List (Option Char)) : I.length ≤ (unread v I).length := by
  have := List.length_pos_iff.2 hv
  induction I with
  | nil => simp [unread]
  | cons x I ih => cases x <;> simp only [unread, List.length_append, List.length_cons] <;> omega

theorem unread_mem {k : Str} {I : List (Option Char)} (h : ∀ c, some c ∈ I → c ∈ k) : ∀ c ∈ unread k I, c ∈ k := by
  induction I with
  | nil => simp [unread]
  | cons x I ih =>
    have ih := ih fun c hc => h c (by simp [hc])
    cases x with
    | none =>
      intro c hc
      simp only [unread, List.mem_append] at hc
      exact hc.elim id (ih c)
    | some d =>
      intro c hc
      simp only [unread, List.mem_cons] at hc
      rcases hc with rfl | hc
      · exact h c (by simp)
      · exact ih c hc

theorem mem_unread (v : Str) {I : List (Option Char)} {c : Char} (h : some c ∈ I) : c ∈ unread v I := by
  induction I with
  | nil => simp at h
  | cons x I ih =>
    rcases List.mem_cons.1 h with rfl | h'
    · simp [unread]
    · cases x <;> simp [unread, ih h']

/-- An occurrence that is lost if the first or the last item is left out. -/
theorem occurrence_span {k A M B : Str} (h : k <:+: A ++ (M ++ B)) (h1 : ¬ k <:+: M ++ B) (h2 : ¬ k <:+: A ++ M) :
    ∃ a p q b, A = a ++ p ∧ B = q ++ b ∧ p ≠ [] ∧ q ≠ [] ∧ k = p ++ (M ++ q) := by
  obtain ⟨a, b, e⟩ := h
  rw [List.append_assoc] at e
  rcases List.append_eq_append_iff.1 e with ⟨p, e1, e2⟩ | ⟨p, e1, e2⟩
  · have hp : p ≠ [] := by
      rintro rfl
      exact h1 ⟨[], b, by simpa using e2⟩
    rw [← List.append_assoc] at e2
    rcases List.append_eq_append_iff.1 e2 with ⟨q, e3, e4⟩ | ⟨q, e3, e4⟩
    · exfalso
      refine h2 ⟨a, q, ?_⟩
      rw [e1, List.append_assoc, ← e3]; simp
    · have hq : q ≠ [] := by
        rintro rfl
        refine h2 ⟨a, [], ?_⟩
        rw [e1, List.append_nil, e3]; simp
      exact ⟨a, p, q, b, e1, e4, hp, hq, by rw [e3, List.append_assoc]⟩
  · exact absurd ⟨p, b, by rw [e2, List.append_assoc]⟩ h1

theorem unread_nil_kept {I : List (Option Char)} (h : ∀ A B, I ≠ A ++ none :: none :: B) (hl : ∀ A, I ≠ A ++ [none]) (k : Str) :
    (unread k I).length ≤ (unread [] I).length * (k.length + 1) := by
  suffices ∀ n (I : List (Option Char)), I.length ≤ n → (∀ A B, I ≠ A ++ none :: none :: B) → (∀ A, I ≠ A ++ [none]) →
      (unread k I).length ≤ (unread [] I).length * (k.length + 1) from this _ I (Nat.le_refl _) h hl
  intro n
  induction n with
  | zero => intro I hn; cases I <;> simp [unread] at hn ⊢
  | succ n ih =>
    intro I hn h hl
    match I, hn, h, hl with
    | [], _, _, _ => simp [unread]
    | [none], _, _, hl => exact absurd rfl (hl [])
    | none :: none :: I, _, h, _ => exact absurd rfl (h [] I)
    | some c :: I, hn, h, hl =>
      have := ih I (by simpa using hn) (fun A B e => h (some c :: A) B (by rw [e]; rfl))
        (fun A e => hl (some c :: A) (by rw [e]; rfl))
      simp only [unread, List.length_cons, Nat.add_mul, Nat.one_mul]
      omega
    | none :: some c :: I, hn, h, hl =>
      have := ih I (by simp at hn; omega) (fun A B e => h (none :: some c :: A) B (by rw [e]; rfl))
        (fun A e => hl (none :: some c :: A) (by rw [e]; rfl))
      simp only [unread, List.length_cons, List.length_append, List.nil_append, Nat.add_mul, Nat.one_mul]
      omega

/-- If the key is ever left behind, it is so in a short text of its own characters. -/
theorem left_short {k v : Str} (hk : k ≠ []) {t : Str} (h : k <:+: strReplace k v t) :
    ∃ u : Str, u.length ≤ k.length * k.length ∧ (∀ c ∈ u, c ∈ k) ∧ k <:+: strReplace k v u := by
  have hk0 := List.length_pos_iff.2 hk
  have hsq : k.length ≤ k.length * k.length := Nat.le_mul_of_pos_left _ hk0
  obtain ⟨I, h1, rfl⟩ := parsed_exists hk t
  rw [parsed_replace hk v h1] at h
  obtain ⟨I, h1, h2, h3⟩ := parsed_smallest h1 h
  suffices hs : (unread k I).length ≤ k.length * k.length ∧ (∀ c, some c ∈ I → c ∈ k) from
    ⟨unread k I, hs.1, unread_mem hs.2, by rw [parsed_replace hk v h1]; exact h2⟩
  match I, h1, h2, h3 with
  | [], _, h2, _ => exact absurd (List.eq_nil_of_infix_nil h2) hk
  | [none], _, _, _ => exact ⟨by simpa [unread] using hsq, by simp⟩
  | [some c], _, h2, _ =>
    have e : k = [c] := by
      rcases List.infix_cons_iff.1 h2 with h4 | h4
      · rcases List.prefix_cons_iff.1 h4 with h5 | ⟨s, e, h5⟩
        · exact absurd h5 hk
        · rw [e, List.prefix_nil.1 h5]
      · exact absurd (List.eq_nil_of_infix_nil h4) hk
    exact ⟨by simp [unread]; omega, by simp [e]⟩
  | x :: y :: I, h1, h2, h3 =>
    obtain ⟨M, z, hM⟩ : ∃ M z, y :: I = M ++ [z] :=
      ⟨_, _, (List.dropLast_concat_getLast (l := y :: I) (by simp)).symm⟩
    rw [hM] at h1 h2 h3 ⊢
    have hcons : ∀ (w : Str) L, unread w (x :: L) = unread w [x] ++ unread w L := fun w L => unread_append w [x] L
    have d1 := h3 (M ++ [z]) (by simp) (parsed_tail h1)
    have d2 := h3 (x :: M) (by simp) (parsed_front (J := [z]) h1)
    rw [hcons, unread_append] at h2
    rw [unread_append] at d1
    rw [hcons] at d2
    obtain ⟨a, p, q, b, e1, e2, hp, hq, e⟩ := occurrence_span h2 d1 d2
    have hp0 := List.length_pos_iff.2 hp
    have hq0 := List.length_pos_iff.2 hq
    have single : ∀ {c : Char} {a b : Str}, [c] = a ++ b → (b ≠ [] → c ∈ b) ∧ (a ≠ [] → c ∈ a) := by
      intro c a b e
      cases a with
      | nil => simp at e; subst e; simp
      | cons d a => simp at e; simp [e.1, e.2]
    refine ⟨?_, ?_⟩
    · by_cases hv : v = []
      · subst hv
        have hx : ∃ c, x = some c := by
          cases x with
          | none => simp [unread] at e1; exact absurd e1.2 hp
          | some c => exact ⟨c, rfl⟩
        have hz : ∃ c, z = some c := by
          cases z with
          | none => simp [unread] at e2; exact absurd e2.1 hq
          | some c => exact ⟨c, rfl⟩
        obtain ⟨c, rfl⟩ := hx
        obtain ⟨d, rfl⟩ := hz
        have hB := unread_nil_kept (I := M ++ [some d]) (fun A B hAB => ?_) (fun A hA => ?_) k
        · have l1 : (unread [] (M ++ [some d])).length + 1 ≤ k.length := by
            have l2 : q.length = 1 := by
              have := congrArg List.length e2; simp [unread] at this; omega
            rw [unread_append, e]
            simp [unread]
            omega
          rw [unread, List.length_cons]
          have : (unread [] (M ++ [some d])).length * (k.length + 1) ≤ (k.length - 1) * (k.length + 1) :=
            Nat.mul_le_mul_right _ (by omega)
          have e3 : (k.length - 1) * (k.length + 1) + 1 = k.length * k.length := by
            obtain ⟨n, hn⟩ : ∃ n, k.length = n + 1 := ⟨k.length - 1, by omega⟩
            rw [hn]; simp [Nat.add_mul, Nat.mul_add]; omega
          omega
        · refine h3 (some c :: (A ++ none :: B)) (by rw [hAB]; simp) (parsed_merge (I := some c :: A) ?_) ?_
          · rw [hAB] at h1; exact h1
          · have : unread [] (some c :: (A ++ none :: B)) = unread [] (some c :: (M ++ [some d])) := by
              rw [hAB]; simp [unread, unread_append]
            rw [this, hcons, unread_append]; exact h2
        · have := congrArg List.getLast? hA
          simp at this
      · have l1 := length_le_unread hv M
        have l2 := unread_length_le hk (x :: (M ++ [z]))
        have l3 := congrArg List.length e
        simp at l3
        refine Nat.le_trans l2 (Nat.mul_le_mul_right _ ?_)
        simp
        omega
    · intro c hc
      rw [List.mem_cons, List.mem_append] at hc
      rw [e, List.mem_append, List.mem_append]
      rcases hc with hc | hc | hc
      · left; subst hc; exact (single e1).1 hp
      · right; left; exact mem_unread v hc
      · right; right
        rw [List.mem_singleton] at hc
        subst hc; exact (single e2).2 hq

/-! ### Keys that have nothing to do with the value -/

theorem unread_prefix {k v w : Str} (hs : ¬ CanStartIn v w) {I : List (Option Char)} (h : w <+: unread v I) :
    w <+: unread k I := by
  induction I generalizing w with
  | nil => exact h
  | cons x I ih =>
    by_cases hw : w = []
    · subst hw; exact List.nil_prefix
    cases x with
    | none => exact absurd ⟨w, hw, List.suffix_refl w, prefix_append_cases h⟩ hs
    | some c =>
      rcases List.prefix_cons_iff.1 h with h5 | ⟨s, rfl, h5⟩
      · exact absurd h5 hw
      · refine List.prefix_cons_iff.2 (.inr ⟨s, rfl, ih (fun ⟨u, h1, h2, h3⟩ => hs ⟨u, h1, ?_, h3⟩) h5⟩)
        exact h2.trans (List.suffix_cons c s)

theorem infix_over {k v o : Str} (hs : ¬ CanStartIn k v) (h : k <:+: v ++ o) : k <:+: o := by
  suffices ∀ s, s <:+ v → k <:+: s ++ o → k <:+: o from this v (List.suffix_refl v) h
  intro s
  induction s with
  | nil => exact fun _ h => h
  | cons c s ih =>
    intro hv h
    rcases List.infix_cons_iff.1 h with h4 | h4
    · exact absurd ⟨c :: s, by simp, hv, (prefix_append_cases (s := c :: s) h4).symm⟩ hs
    · exact ih ((List.suffix_cons c s).trans hv) h4

theorem apart_free {k v : Str} (hk : k ≠ []) (h1 : ¬ CanStartIn k v) (h2 : ¬ CanStartIn v k) (t : Str) :
    ¬ k <:+: strReplace k v t := by
  obtain ⟨I, h3, rfl⟩ := parsed_exists hk t
  rw [parsed_replace hk v h3]
  induction I with
  | nil => exact fun h => hk (List.eq_nil_of_infix_nil h)
  | cons x I ih =>
    cases x with
    | none => exact fun h => ih h3 (infix_over h1 h)
    | some c =>
      intro h
      rcases List.infix_cons_iff.1 h with h4 | h4
      · exact h3.1 (unread_prefix (k := k) (I := some c :: I) h2 h4)
      · exact ih h3.2 h4

/-! ### Again and again -/

/-- The number a text stands for. -/
def code : Str → Nat
  | [] => 0
  | c :: t => c.toNat * 0x110000 ^ t.length + code t

theorem code_append (s t : Str) : code (s ++ t) = code s * 0x110000 ^ t.length + code t := by
  induction s with
  | nil => simp [code]
  | cons c s ih =>
    rw [List.cons_append, code, ih, code, List.length_append, Nat.pow_add, Nat.add_mul, Nat.mul_assoc, Nat.add_assoc]

theorem toNat_lt (c : Char) : c.toNat < 0x110000 := by
  have := c.valid
  simp only [UInt32.isValidChar, Nat.isValidChar] at this
  show c.val.toNat < _
  omega

theorem code_lt (t : Str) : code t < 0x110000 ^ t.length := by
  induction t with
  | nil => simp [code]
  | cons c t ih =>
    rw [code, List.length_cons, Nat.pow_succ]
    have h1 : (c.toNat + 1) * 0x110000 ^ t.length ≤ 0x110000 * 0x110000 ^ t.length :=
      Nat.mul_le_mul_right _ (toNat_lt c)
    rw [Nat.add_mul, Nat.one_mul, Nat.mul_comm 0x110000] at h1
    omega

theorem code_inj {s t : Str} (hl : s.length = t.length) (h : code s = code t) : s = t := by
  induction s generalizing t with
  | nil => exact (List.length_eq_zero_iff.1 hl.symm).symm
  | cons c s ih =>
    cases t with
    | nil => simp at hl
    | cons d t =>
      have hl : s.length = t.length := by simpa using hl
      rw [code, code, hl] at h
      have h1 := code_lt s
      have h2 := code_lt t
      rw [hl] at h1
      have hpos : 0 < 0x110000 ^ t.length := Nat.lt_of_le_of_lt (Nat.zero_le _) h1
      have h3 : c.toNat = d.toNat := by
        have : (c.toNat * 0x110000 ^ t.length + code s) / 0x110000 ^ t.length =
          (d.toNat * 0x110000 ^ t.length + code t) / 0x110000 ^ t.length := by rw [h]
        rwa [Nat.mul_comm, Nat.mul_add_div hpos, Nat.div_eq_of_lt h1, Nat.mul_comm, Nat.mul_add_div hpos,
          Nat.div_eq_of_lt h2] at this
      rw [h3] at h
      rw [ih hl (by omega), Char.toNat_inj.1 h3]

theorem replace_code {k : Str} (hk : k ≠ []) {v : Str} (hl : v.length = k.length) (t : Str) :
    (strReplace k v t).length = t.length ∧
    (code k < code v → code t ≤ code (strReplace k v t) ∧ (k <:+: t → code t < code (strReplace k v t))) ∧
    (code v < code k → code (strReplace k v t) ≤ code t ∧ (k <:+: t → code (strReplace k v t) < code t)) := by
  obtain ⟨I, h3, rfl⟩ := parsed_exists hk t
  rw [parsed_replace hk v h3]
  induction I with
  | nil => simp [unread, code, hk]
  | cons x I ih =>
    cases x with
    | none =>
      obtain ⟨e, ih1, ih2⟩ := ih h3
      have hpos : 0 < 0x110000 ^ (unread k I).length := Nat.lt_of_le_of_lt (Nat.zero_le _) (code_lt _)
      simp only [unread, code_append, List.length_append, e, hl, true_and]
      refine ⟨fun h => ?_, fun h => ?_⟩
      · have := (ih1 h).1
        have := Nat.mul_lt_mul_of_pos_right h hpos
        exact ⟨by omega, fun _ => by omega⟩
      · have := (ih2 h).1
        have := Nat.mul_lt_mul_of_pos_right h hpos
        exact ⟨by omega, fun _ => by omega⟩
    | some c =>
      obtain ⟨e, ih1, ih2⟩ := ih h3.2
      have hi : k <:+: c :: unread k I → k <:+: unread k I := fun h =>
        (List.infix_cons_iff.1 h).elim (fun h => absurd h h3.1) id
      simp only [unread, code, List.length_cons, e, true_and]
      refine ⟨fun h => ?_, fun h => ?_⟩
      · exact ⟨by have := (ih1 h).1; omega, fun hc => by have := (ih1 h).2 (hi hc); omega⟩
      · exact ⟨by have := (ih2 h).1; omega, fun hc => by have := (ih2 h).2 (hi hc); omega⟩

theorem rest_by {f : Str → Str} {P : Str → Prop} (μ : Str → Nat) (h : ∀ t, P t → μ (f t) < μ t) (t : Str) :
    ∃ n ≤ μ t, ¬ P (Nat.repeat f n t) := by
  suffices ∀ m t, μ t ≤ m → ∃ n ≤ μ t, ¬ P (Nat.repeat f n t) from this _ t (Nat.le_refl _)
  intro m
  induction m with
  | zero =>
    intro t hm
    exact ⟨0, Nat.zero_le _, fun hp => by have := h t hp; omega⟩
  | succ m ih =>
    intro t hm
    by_cases hp : P t
    · have h1 := h t hp
      obtain ⟨n, h2, h3⟩ := ih (f t) (by omega)
      exact ⟨n + 1, by omega, by rw [repeat_add]; exact h3⟩
    · exact ⟨0, Nat.zero_le _, hp⟩

theorem repeat_rest {k : Str} (hk : k ≠ []) (v t : Str) {n : Nat} (h : ¬ k <:+: Nat.repeat (strReplace k v) n t) (m : Nat) :
    Nat.repeat (strReplace k v) (m + n) t = Nat.repeat (strReplace k v) n t := by
  induction m with
  | zero => rw [Nat.zero_add]
  | succ m ih => rw [Nat.succ_add, Nat.repeat, ih, strReplace_absent hk v h]

theorem left_of_contained {k v t : Str} (hk : k ≠ []) (hv : k <:+: v) (ht : k <:+: t) : k <:+: strReplace k v t := by
  obtain ⟨I, h3, rfl⟩ := parsed_exists hk t
  rw [parsed_replace hk v h3]
  induction I with
  | nil => exact absurd (List.eq_nil_of_infix_nil ht) hk
  | cons x I ih =>
    cases x with
    | none => exact hv.trans (List.prefix_append _ _).isInfix
    | some c => exact (ih h3.2 ((List.infix_cons_iff.1 ht).elim (fun h => absurd h h3.1) id)).trans (List.suffix_cons _ _).isInfix

/-! ### The property -/

/-- C110: a text at rest has no key in it. -/
theorem C110_at_rest (k v : Str) (hk : k ≠ []) (hv : v ≠ k) (σs : Nat → Oracle) (t : Str) :
    (oneRule k v).normalize σs false t = .ok t ↔ ¬ k <:+: t := by
  rw [oneRule_normalize, Outcome.ok.injEq]
  exact ⟨fun h hi => hv (strReplace_eq_self hk hi h), strReplace_absent hk v⟩

/-- C110: applying a rule once is enough for all texts exactly if it never leaves its key behind, and exactly if it
does not in the texts of characters of the key that are not longer than the square of its length. -/
theorem C110_once (k v : Str) (hk : k ≠ []) (hv : v ≠ k) (seeds : Nat → Nat → Oracle) :
    ((∀ t, (oneRule k v).again seeds t 2 = (oneRule k v).again seeds t 1) ↔
      ∀ t o, (oneRule k v).normalize (seeds 0) false t = .ok o → ¬ k <:+: o) ∧
    ((∀ t, (oneRule k v).again seeds t 2 = (oneRule k v).again seeds t 1) ↔
      ∀ t : Str, t.length ≤ k.length ^ 2 → (∀ c ∈ t, c ∈ k) →
        (oneRule k v).again seeds t 2 = (oneRule k v).again seeds t 1) := by
  simp only [oneRule_normalize, again_eq (oneRule_normalize k v), Nat.repeat, Outcome.ok.injEq]
  have h1 : ∀ t, strReplace k v (strReplace k v t) = strReplace k v t ↔ ¬ k <:+: strReplace k v t := fun t =>
    ⟨fun h hi => hv (strReplace_eq_self hk hi h), strReplace_absent hk v⟩
  refine ⟨⟨fun h t o e => e ▸ (h1 t).1 (h t), fun h t => (h1 t).2 (h t _ rfl)⟩, fun h t _ _ => h t, fun h t => ?_⟩
  refine (h1 t).2 fun hi => ?_
  obtain ⟨u, hu1, hu2, hu3⟩ := left_short hk hi
  exact (h1 u).1 (h u (by rw [Nat.pow_two]; exact hu1) hu2) hu3

/-- C110: it is if key and value cannot overlap. -/
theorem C110_apart (k v : Str) (hk : k ≠ []) (h1 : ¬ CanStartIn k v) (h2 : ¬ CanStartIn v k) (seeds : Nat → Nat → Oracle) (t : Str) :
    (oneRule k v).again seeds t 2 = (oneRule k v).again seeds t 1 := by
  simp only [again_eq (oneRule_normalize k v), Nat.repeat]
  rw [strReplace_absent hk v (apart_free hk h1 h2 t)]

/-- C110: with a key of one character it is exactly if the value is the key or does not contain it. -/
theorem C110_one_character (c : Char) (v : Str) (seeds : Nat → Nat → Oracle) :
    (∀ t, (oneRule [c] v).again seeds t 2 = (oneRule [c] v).again seeds t 1) ↔ v = [c] ∨ c ∉ v := by
  simp only [again_eq (oneRule_normalize [c] v), Nat.repeat, Outcome.ok.injEq]
  constructor
  · intro h
    have := h [c]
    have e : strReplace [c] v [c] = v := by
      have := strReplace_hit (k := [c]) (by simp) v []
      simpa [strReplace_nil] using this
    rw [e] at this
    by_cases hc : c ∈ v
    · exact .inl (strReplace_char_eq hc this)
    · exact .inr hc
  · rintro (rfl | hc) t
    · simp [strReplace_char_id]
    · refine strReplace_char_absent v fun h => ?_
      rw [strReplace_char, List.mem_flatMap] at h
      obtain ⟨d, -, hd⟩ := h
      split at hd
      · exact hc hd
      · rename_i hne
        simp at hd
        exact hne (by simp [hd])

/-- C110: if the value is not longer than the key and not the key, every text comes to rest, and has no key in it then;
if the value is shorter, after no more passes than the text has characters. -/
theorem C110_comes_to_rest (k v : Str) (hk : k ≠ []) (hv : v ≠ k) (hl : v.length ≤ k.length) (seeds : Nat → Nat → Oracle) (t : Str) :
    ∃ n o, ¬ k <:+: o ∧ (∀ m, n ≤ m → (oneRule k v).again seeds t m = .ok o) ∧ (v.length < k.length → n ≤ t.length) := by
  suffices ∃ n, ¬ k <:+: Nat.repeat (strReplace k v) n t ∧ (v.length < k.length → n ≤ t.length) by
    obtain ⟨n, h1, h2⟩ := this
    refine ⟨n, _, h1, fun m hm => ?_, h2⟩
    rw [again_eq (oneRule_normalize k v), show m = (m - n) + n by omega, repeat_rest hk v t h1]
  by_cases hs : v.length < k.length
  · obtain ⟨n, h1, h2⟩ := rest_by (f := strReplace k v) (P := (k <:+: ·)) List.length (fun t ht => by
      obtain ⟨n, h1, h2⟩ := strReplace_length hk v t
      have := Nat.mul_lt_mul_of_pos_left hs (h2 ht)
      omega) t
    exact ⟨n, h2, fun _ => h1⟩
  · have hl : v.length = k.length := by omega
    rcases Nat.lt_trichotomy (code k) (code v) with hc | hc | hc
    · obtain ⟨n, -, h2⟩ := rest_by (f := strReplace k v) (P := (k <:+: ·)) (fun t => 0x110000 ^ t.length - code t) (fun t ht => by
        obtain ⟨e, h1, -⟩ := replace_code hk hl t
        have := (h1 hc).2 ht
        have := code_lt (strReplace k v t)
        simp only [e] at this ⊢
        omega) t
      exact ⟨n, h2, fun h => absurd h hs⟩
    · exact absurd (code_inj hl hc.symm) hv
    · obtain ⟨n, -, h2⟩ := rest_by (f := strReplace k v) (P := (k <:+: ·)) code (fun t ht =>
        ((replace_code hk hl t).2.2 hc).2 ht) t
      exact ⟨n, h2, fun h => absurd h hs⟩

/-- C110: if the value contains the key and more, a text that contains the key grows with every pass. -/
theorem C110_never (k v : Str) (hk : k ≠ []) (hv : v ≠ k) (hi : k <:+: v) (seeds : Nat → Nat → Oracle) (t : Str) (ht : k <:+: t) (n : Nat) :
    ∃ o o', (oneRule k v).again seeds t n = .ok o ∧ (oneRule k v).again seeds t (n + 1) = .ok o' ∧
      o.length < o'.length := by
  have hl : k.length < v.length := Nat.lt_of_le_of_ne hi.length_le fun e => hv (hi.eq_of_length e).symm
  have hall : ∀ n, k <:+: Nat.repeat (strReplace k v) n t := by
    intro n
    induction n with
    | zero => exact ht
    | succ n ih => exact left_of_contained hk hi ih
  refine ⟨_, _, again_eq (oneRule_normalize k v) .., again_eq (oneRule_normalize k v) .., ?_⟩
  obtain ⟨m, h1, h2⟩ := strReplace_length hk v (Nat.repeat (strReplace k v) n t)
  have := Nat.mul_lt_mul_of_pos_left hl (h2 (hall n))
  show _ < (strReplace k v _).length
  omega

/- `㌔` to `キロ` is done at once. `ab` to nothing is not, but comes to rest; `ab` to `ba` does so too. -/
example : ¬ CanStartIn (c! "㌔") (c! "キロ") ∧ ¬ CanStartIn (c! "キロ") (c! "㌔") := by decide
example (seeds : Nat → Nat → Oracle) : (oneRule (c! "ab") []).again seeds (c! "aabb") 1 = .ok (c! "ab") ∧
    (oneRule (c! "ab") []).again seeds (c! "aabb") 2 = .ok [] ∧
    (oneRule (c! "ab") (c! "ba")).again seeds (c! "aab") 1 = .ok (c! "aba") ∧
    (oneRule (c! "ab") (c! "ba")).again seeds (c! "aab") 3 = .ok (c! "baa") := by
  simp only [again_eq (oneRule_normalize _ _)]
  decide
/- `aa` to nothing is done at once, although what it deletes stands between what it keeps. -/
example (seeds : Nat → Nat → Oracle) (t : Str) : (oneRule (c! "aa") []).again seeds t 2 = (oneRule (c! "aa") []).again seeds t 1 := by
  refine ((C110_once (c! "aa") [] (by decide) (by decide) seeds).2.2 fun t hl hc => ?_) t
  have e : t = List.replicate t.length 'a' := List.eq_replicate_of_mem fun c h => by have := hc c h; simpa using this
  simp only [again_eq (oneRule_normalize _ _)]
  rw [e]
  have : t.length = 0 ∨ t.length = 1 ∨ t.length = 2 ∨ t.length = 3 ∨ t.length = 4 := by
    have : (c! "aa").length ^ 2 = 4 := by decide
    omega
  rcases this with h | h | h | h | h <;> rw [h] <;> decide
example : c! "a" <:+: c! "aa" ∧ c! "aa" ≠ c! "a" := by decide

end Chanoma
