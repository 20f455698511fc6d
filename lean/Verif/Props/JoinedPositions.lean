import Verif.Spec.JoinedPositions
import Verif.Props.Positions
import Verif.Props.Conversion
import Verif.Proofs.Pipeline
/-! # C91: the positions of two texts put together -/

namespace Chanoma

/-! ### The character converter -/

theorem substPositions_append (f : Char → Option Char) (pre a b : Str) :
    substPositions f pre (a ++ b) = substPositions f pre a ++ substPositions f (pre ++ a) b := by
  induction a generalizing pre with
  | nil => simp [substPositions]
  | cons c a ih => simp [substPositions, ih]

theorem substPositions_moved (f : Char → Option Char) (a pre b : Str) :
    substPositions f (a ++ pre) b = (substPositions f pre b).map (Position.moved a.length (strLen a)) := by
  induction b generalizing pre with
  | nil => rfl
  | cons c b ih =>
    rw [substPositions, substPositions, List.map_append, List.append_assoc, ih (pre ++ [c])]
    congr 1
    cases f c with
    | none => rfl
    | some d => simp [Position.moved, strLen_append, Nat.add_comm]

theorem converter_joined (x : CharacterConverter) (σa σb σ : Oracle) (a b : Str) :
    ∃ pa pb p, x.modifyWithPositions σa a = .ok ⟨.characterConverter x, substitute x.itemsMap.get? a, pa⟩ ∧
      x.modifyWithPositions σb b = .ok ⟨.characterConverter x, substitute x.itemsMap.get? b, pb⟩ ∧
      x.modifyWithPositions σ (a ++ b) =
        .ok ⟨.characterConverter x, substitute x.itemsMap.get? (a ++ b), p⟩ ∧
      p.Perm (pa ++ pb.map (Position.moved a.length (strLen a))) := by
  obtain ⟨pa, h1, h2⟩ := modifyWithPositions_eq x σa a
  obtain ⟨pb, h3, h4⟩ := modifyWithPositions_eq x σb b
  obtain ⟨p, h5, h6⟩ := modifyWithPositions_eq x σ (a ++ b)
  rw [occPos_substPositions] at h2 h4 h6
  refine ⟨pa, pb, p, h1, h3, h5, h6.trans ?_⟩
  have e := substPositions_moved x.itemsMap.get? a [] b
  rw [List.append_nil] at e
  rw [substPositions_append, List.nil_append, e]
  exact (h2.append (h4.map _)).symm

/-- C91, a converter: what it reports of two texts put together is, up to the order of the
reports, what it reports of the first and what it reports of the second, the latter moved on by
the length of the first (`index` by characters, `utf8_index` by bytes). -/
theorem C91_converter (x : CharacterConverter) (σa σb σ : Oracle) (a b : Str) :
    ∃ ra rb r, (ModifierKind.characterConverter x).modifyWithPositions σa a = .ok ra ∧
      (ModifierKind.characterConverter x).modifyWithPositions σb b = .ok rb ∧
      (ModifierKind.characterConverter x).modifyWithPositions σ (a ++ b) = .ok r ∧
      r.text = ra.text ++ rb.text ∧
      r.positions.Perm (ra.positions ++ rb.positions.map (Position.moved a.length (strLen a))) := by
  obtain ⟨pa, pb, p, h1, h2, h3, h4⟩ := converter_joined x σa σb σ a b
  exact ⟨_, _, _, h1, h2, h3, by simp [substitute], h4⟩

/-! ### The reducer -/

theorem reduce_counter (c : Char) (t : Str) :
    (t.zipIdx.foldl (reducePosStep c) (0, [], [])).1 = 0 ↔ t.getLast? ≠ some c := by
  rcases List.eq_nil_or_concat t with rfl | ⟨s, ch, rfl⟩
  · simp
  · rw [List.concat_eq_append, List.zipIdx_append, List.foldl_append]
    simp only [List.zipIdx_cons, List.zipIdx_nil, List.foldl_cons, List.foldl_nil,
      List.getLast?_append, List.getLast?_singleton, Option.some_or, ne_eq, Option.some.injEq]
    generalize s.zipIdx.foldl (reducePosStep c) (0, [], []) = st
    obtain ⟨n, o, ps⟩ := st
    by_cases h : c = ch
    · subst h
      by_cases hn : 0 < n <;> simp [reducePosStep, hn]
    · have h' : ¬ ch = c := fun e => h e.symm
      by_cases hn : 0 < n
      · simp [reducePosStep, h, hn, h']
      · simp [reducePosStep, h, hn, h']; omega

theorem reduce_fold_moved (c : Char) (n : Nat) (T : Str) (P : List Position) (b : Str) :
    ∀ (i k : Nat) (o : Str) (ps : List Position),
      (b.zipIdx (n + i)).foldl (reducePosStep c) (k, T ++ o, P ++ ps.map (Position.moved (strLen T) n)) =
        (((b.zipIdx i).foldl (reducePosStep c) (k, o, ps)).1,
          T ++ ((b.zipIdx i).foldl (reducePosStep c) (k, o, ps)).2.1,
          P ++ ((b.zipIdx i).foldl (reducePosStep c) (k, o, ps)).2.2.map (Position.moved (strLen T) n)) := by
  induction b with
  | nil => intro i k o ps; rfl
  | cons ch b ih =>
    intro i k o ps
    simp only [List.zipIdx_cons, List.foldl_cons]
    have key : reducePosStep c (k, T ++ o, P ++ ps.map (Position.moved (strLen T) n)) (ch, n + i) =
        ((reducePosStep c (k, o, ps) (ch, i)).1, T ++ (reducePosStep c (k, o, ps) (ch, i)).2.1,
          P ++ (reducePosStep c (k, o, ps) (ch, i)).2.2.map (Position.moved (strLen T) n)) := by
      unfold reducePosStep
      by_cases h : c = ch
      · by_cases hk : k > 0 <;> simp [h, hk]
      · by_cases hk : k > 0
        · simp [h, hk, Position.moved, strLen_append, Nat.add_comm]
        · simp [h, hk]
    rw [key, Nat.add_assoc]
    exact ih (i + 1) _ _ _

theorem reduce_counter_le (c : Char) (t : Str) : ∀ (i k : Nat) (o : Str) (ps : List Position),
    ((t.zipIdx i).foldl (reducePosStep c) (k, o, ps)).1 ≤ k + strLen t := by
  induction t with
  | nil => intro i k o ps; exact Nat.le_refl _
  | cons ch t ih =>
    intro i k o ps
    simp only [List.zipIdx_cons, List.foldl_cons]
    have h1 : (reducePosStep c (k, o, ps) (ch, i)).1 ≤ k + 1 := by
      unfold reducePosStep
      by_cases h : c = ch <;> by_cases hk : k > 0 <;> simp [h, hk]
    generalize reducePosStep c (k, o, ps) (ch, i) = st at h1
    obtain ⟨k', o', ps'⟩ := st
    have h2 := ih (i + 1) k' o' ps'
    have := Char.utf8Size_pos ch
    rw [strLen_cons]
    simp only at h1
    omega

theorem reduce_run (x : ConsecutiveCharacterReducer) (t : Str) {k : Nat} {o : Str} {ps : List Position}
    (h : t.zipIdx.foldl (reducePosStep x.c) (0, [], []) = (k, o, ps)) :
    x.modifyWithPositions t = .ok ⟨.consecutiveCharacterReducer x, o,
      ps ++ if k = 0 then [] else [⟨List.replicate k x.c, [x.c], strLen o, x.c.utf8Size * k, strLen t - k, k⟩]⟩ := by
  have hle := reduce_counter_le x.c t 0 0 [] []
  rw [h] at hle
  unfold ConsecutiveCharacterReducer.modifyWithPositions
  rw [h]
  simp only
  by_cases hk : k = 0
  · subst hk; simp
  · have : k > 0 := by omega
    have hu : usub (strLen t) k = .ok (strLen t - k) := by
      unfold usub; rw [if_pos (by simp only at hle; omega)]
    rw [if_pos this, hu]
    simp [hk]

theorem reducer_joined (x : ConsecutiveCharacterReducer) (a b : Str) (ha : a.getLast? ≠ some x.c) :
    ∃ oa pa k o ps, x.modifyWithPositions a = .ok ⟨.consecutiveCharacterReducer x, oa, pa⟩ ∧
      (k = 0 ↔ b.getLast? ≠ some x.c) ∧ k ≤ strLen b ∧
      x.modifyWithPositions b = .ok ⟨.consecutiveCharacterReducer x, o,
        ps ++ if k = 0 then []
          else [⟨List.replicate k x.c, [x.c], strLen o, x.c.utf8Size * k, strLen b - k, k⟩]⟩ ∧
      x.modifyWithPositions (a ++ b) = .ok ⟨.consecutiveCharacterReducer x, oa ++ o,
        (pa ++ ps.map (Position.moved (strLen oa) a.length)) ++ if k = 0 then []
          else [⟨List.replicate k x.c, [x.c], strLen (oa ++ o), x.c.utf8Size * k,
            strLen (a ++ b) - k, k⟩]⟩ := by
  rcases ea : a.zipIdx.foldl (reducePosStep x.c) (0, [], []) with ⟨ka, oa, pa⟩
  rcases eb : b.zipIdx.foldl (reducePosStep x.c) (0, [], []) with ⟨k, o, ps⟩
  have h0 := (reduce_counter x.c a).mpr ha
  rw [ea] at h0
  simp only at h0
  subst h0
  have hk := reduce_counter x.c b
  rw [eb] at hk
  have hle := reduce_counter_le x.c b 0 0 [] []
  rw [eb] at hle
  have hab : (a ++ b).zipIdx.foldl (reducePosStep x.c) (0, [], []) =
      (k, oa ++ o, pa ++ ps.map (Position.moved (strLen oa) a.length)) := by
    have := reduce_fold_moved x.c a.length oa pa b 0 0 [] []
    simp only [List.append_nil, List.map_nil, Nat.add_zero, eb] at this
    rw [List.zipIdx_append, List.foldl_append, ea, Nat.zero_add, this]
  refine ⟨oa, pa, k, o, ps, ?_, hk, ?_, reduce_run x b eb, reduce_run x (a ++ b) hab⟩
  · simpa using reduce_run x a ea
  · simpa using hle

/-- C91, a reducer: if neither text ends in the repeated character, the runs it reports of the two
texts put together are those of the first and, after them, those of the second moved on: `index`
by the bytes of the first *result*, `utf8_index` by the characters of the first *text*. -/
theorem C91_reducer (x : ConsecutiveCharacterReducer) (σa σb σ : Oracle) (a b : Str)
    (ha : a.getLast? ≠ some x.c) (hb : b.getLast? ≠ some x.c) :
    ∃ ra rb r, (ModifierKind.consecutiveCharacterReducer x).modifyWithPositions σa a = .ok ra ∧
      (ModifierKind.consecutiveCharacterReducer x).modifyWithPositions σb b = .ok rb ∧
      (ModifierKind.consecutiveCharacterReducer x).modifyWithPositions σ (a ++ b) = .ok r ∧
      r.text = ra.text ++ rb.text ∧
      r.positions = ra.positions ++ rb.positions.map (Position.moved (strLen ra.text) a.length) := by
  obtain ⟨oa, pa, k, o, ps, h1, hk, -, h2, h3⟩ := reducer_joined x a b ha
  have hk0 := hk.mpr hb
  exact ⟨_, _, _, h1, h2, h3, rfl, by simp [hk0]⟩

/-- C91, a reducer, the second text ending in the repeated character: the run at the very end is
the last one reported of the second text, and its `utf8_index` is moved by the *bytes* of the
first text, unlike all the others. -/
theorem C91_reducer_end (x : ConsecutiveCharacterReducer) (σa σb σ : Oracle) (a b : Str)
    (ha : a.getLast? ≠ some x.c) (hb : b.getLast? = some x.c) :
    ∃ ra rb r ps p, (ModifierKind.consecutiveCharacterReducer x).modifyWithPositions σa a = .ok ra ∧
      (ModifierKind.consecutiveCharacterReducer x).modifyWithPositions σb b = .ok rb ∧
      (ModifierKind.consecutiveCharacterReducer x).modifyWithPositions σ (a ++ b) = .ok r ∧
      r.text = ra.text ++ rb.text ∧ rb.positions = ps ++ [p] ∧
      r.positions = ra.positions ++ ps.map (Position.moved (strLen ra.text) a.length) ++
        [p.moved (strLen ra.text) (strLen a)] := by
  obtain ⟨oa, pa, k, o, ps, h1, hk, hle, h2, h3⟩ := reducer_joined x a b ha
  have hk0 : k ≠ 0 := fun e => hk.mp e hb
  rw [if_neg hk0] at h2 h3
  refine ⟨_, _, _, ps, _, h1, h2, h3, rfl, rfl, ?_⟩
  simp only [Position.moved, strLen_append, List.append_cancel_left_eq, List.cons.injEq, and_true,
    Position.mk.injEq, true_and]
  exact ⟨Nat.add_comm _ _, by omega⟩

/-! ### `Trim` -/

theorem lead_count {m n : Nat} {s t : Str} (hs : s.head? ≠ some ' ') (ht : t.head? ≠ some ' ')
    (h : List.replicate m ' ' ++ s = List.replicate n ' ' ++ t) : m = n ∧ s = t := by
  induction m generalizing n with
  | zero =>
    cases n with
    | zero => exact ⟨rfl, by simpa using h⟩
    | succ n => rw [List.replicate_succ] at h; simp at h; subst h; simp at hs
  | succ m ih =>
    cases n with
    | zero => rw [List.replicate_succ] at h; simp at h; subst h; simp at ht
    | succ n =>
      simp only [List.replicate_succ, List.cons_append, List.cons.injEq, true_and] at h
      obtain ⟨h1, h2⟩ := ih h
      exact ⟨congrArg (· + 1) h1, h2⟩

theorem trim_nonempty {a b : Nat} {o t : Str} (h : t = List.replicate a ' ' ++ o ++ List.replicate b ' ')
    (hc : ∃ c ∈ t, c ≠ ' ') : o ≠ [] := by
  rintro rfl
  obtain ⟨c, hc, hne⟩ := hc
  rw [h] at hc
  simp only [List.append_nil, List.mem_append, List.mem_replicate] at hc
  rcases hc with h | h <;> exact hne h.2

theorem head_append_ne {s : Str} (h : s ≠ []) (t : Str) : (s ++ t).head? = s.head? := by
  cases s with
  | nil => exact absurd rfl h
  | cons _ _ => rfl

theorem last_append_ne {t : Str} (s : Str) (h : t ≠ []) : (s ++ t).getLast? = t.getLast? := by
  rw [List.getLast?_append]
  cases e : t.getLast? with
  | none => exact absurd (List.getLast?_eq_none_iff.mp e) h
  | some c => rfl

/-- C91, `Trim`: if neither text consists of spaces only, what is reported of the two put together
is what is reported of the start of the first, and what is reported of the end of the second moved
on by the length of the first (here `index` by bytes, `utf8_index` by characters). -/
theorem C91_trim (σa σb σ : Oracle) (a b : Str) (ha : ∃ c ∈ a, c ≠ ' ') (hb : ∃ c ∈ b, c ≠ ' ') :
    ∃ ra rb r, ModifierKind.trim.modifyWithPositions σa a = .ok ra ∧
      ModifierKind.trim.modifyWithPositions σb b = .ok rb ∧
      ModifierKind.trim.modifyWithPositions σ (a ++ b) = .ok r ∧
      r.positions = ra.positions.filter (fun p => p.index = 0) ++
        (rb.positions.filter (fun p => p.index ≠ 0)).map (Position.moved (strLen a) a.length) := by
  obtain ⟨a1, a2, e1, h1⟩ := trimPos_eq a
  obtain ⟨b1, b2, e2, h2⟩ := trimPos_eq b
  obtain ⟨n1, n2, e3, h3⟩ := trimPos_eq (a ++ b)
  refine ⟨_, _, _, h1, h2, h3, ?_⟩
  have na := trim_nonempty e1 ha
  have nb := trim_nonempty e2 hb
  obtain ⟨-, -, -, ha1, ha2⟩ := trim_eq a
  obtain ⟨-, -, -, hb1, hb2⟩ := trim_eq b
  obtain ⟨-, -, -, hc1, hc2⟩ := trim_eq (a ++ b)
  have hne : ∃ c ∈ a ++ b, c ≠ ' ' := by
    obtain ⟨c, hc, hn⟩ := ha
    exact ⟨c, List.mem_append_left _ hc, hn⟩
  have nc := trim_nonempty e3 hne
  have e4 : a ++ b = List.replicate a1 ' ' ++ (trimModify a ++ List.replicate a2 ' ' ++
      (List.replicate b1 ' ' ++ trimModify b)) ++ List.replicate b2 ' ' := by
    conv => lhs; rw [e1, e2]
    simp only [List.append_assoc]
  have hl : n1 = a1 := by
    refine (lead_count (s := trimModify (a ++ b) ++ List.replicate n2 ' ')
      (t := trimModify a ++ List.replicate a2 ' ' ++
      (List.replicate b1 ' ' ++ trimModify b) ++ List.replicate b2 ' ') ?_ ?_ ?_).1
    · rw [head_append_ne nc]; exact hc1
    · rw [List.append_assoc, List.append_assoc, head_append_ne na]; exact ha1
    · rw [← List.append_assoc, ← e3, e4]
      simp only [List.append_assoc]
  have ho := trim_unique (e3.symm.trans e4) hc1 hc2
    (by rw [List.append_assoc, head_append_ne na]; exact ha1)
    (by rw [← List.append_assoc, last_append_ne _ nb]; exact hb2)
  have hr : n2 = b2 := by
    have l1 := congrArg List.length e3
    have l2 := congrArg List.length e4
    rw [ho] at l1
    simp only [List.length_append, List.length_replicate] at l1 l2
    omega
  subst hl hr
  have la : a2 < strLen a := by
    have := congrArg strLen e1
    rw [strLen_append, strLen_append, strLen_space, strLen_space] at this
    have l := length_le_strLen (trimModify a)
    have := List.length_pos_iff.mpr na
    omega
  have lb : n2 < strLen b ∧ n2 ≤ b.length := by
    have h := congrArg strLen e2
    have h' := congrArg List.length e2
    rw [strLen_append, strLen_append, strLen_space, strLen_space] at h
    simp only [List.length_append, List.length_replicate] at h'
    have l := length_le_strLen (trimModify b)
    have := List.length_pos_iff.mpr nb
    omega
  have f1 : ¬ strLen a - a2 = 0 := by omega
  have f2 : ¬ strLen b - n2 = 0 := by omega
  have f3 : strLen (a ++ b) - n2 = strLen b - n2 + strLen a := by rw [strLen_append]; omega
  have f4 : (a ++ b).length - n2 = b.length - n2 + a.length := by rw [List.length_append]; omega
  simp only [f3, f4]
  clear e1 e2 e3 e4 h1 h2 h3 ho ha1 ha2 hb1 hb2 hc1 hc2 ha hb hne na nb nc la lb f3 f4
  by_cases z1 : n1 = 0 <;> by_cases z2 : n2 = 0 <;> by_cases z3 : a2 = 0 <;> by_cases z4 : b1 = 0 <;>
    simp [Position.moved, f1, f2, z1, z2, z3, z4] <;> simp_all

/-! ### Converters one after the other -/

theorem converters_joined (σa σb σ : Nat → Oracle) (ms : List ModifierKind)
    (h : ∀ m ∈ ms, ∃ x, m = .characterConverter x) :
    ∀ (i : Nat) (a b : Str) (acca accb acc : List ModifiedRecord), ∃ ras rbs rs oa ob,
      (ms.zipIdx i).foldlM
        (fun (st : List ModifiedRecord × Str) (m : ModifierKind × Nat) => do
          let result ← m.1.modifyWithPositions (σa m.2) st.2
          return (st.1 ++ [result], result.text)) (acca, a) = .ok (acca ++ ras, oa) ∧
      (ms.zipIdx i).foldlM
        (fun (st : List ModifiedRecord × Str) (m : ModifierKind × Nat) => do
          let result ← m.1.modifyWithPositions (σb m.2) st.2
          return (st.1 ++ [result], result.text)) (accb, b) = .ok (accb ++ rbs, ob) ∧
      (ms.zipIdx i).foldlM
        (fun (st : List ModifiedRecord × Str) (m : ModifierKind × Nat) => do
          let result ← m.1.modifyWithPositions (σ m.2) st.2
          return (st.1 ++ [result], result.text)) (acc, a ++ b) = .ok (acc ++ rs, oa ++ ob) ∧
      ras.length = ms.length ∧ rbs.length = ms.length ∧ rs.length = ms.length ∧
      (∀ (j : Nat) (ra rb r : ModifiedRecord) (t : Str), ras[j]? = some ra → rbs[j]? = some rb →
        rs[j]? = some r → (a :: ras.map (·.text))[j]? = some t → r.text = ra.text ++ rb.text ∧
          r.positions.Perm (ra.positions ++ rb.positions.map (Position.moved a.length (strLen t)))) := by
  induction ms with
  | nil => intro i a b acca accb acc; exact ⟨[], [], [], a, b, by simp⟩
  | cons m ms ih =>
    intro i a b acca accb acc
    obtain ⟨x, rfl⟩ := h m (by simp)
    obtain ⟨pa, pb, p, h1, h2, h3, h4⟩ := converter_joined x (σa i) (σb i) (σ i) a b
    have hs : substitute x.itemsMap.get? (a ++ b) =
      substitute x.itemsMap.get? a ++ substitute x.itemsMap.get? b := by simp [substitute]
    rw [hs] at h3
    change ModifierKind.modifyWithPositions (σa i) a (.characterConverter x) = _ at h1
    change ModifierKind.modifyWithPositions (σb i) b (.characterConverter x) = _ at h2
    change ModifierKind.modifyWithPositions (σ i) (a ++ b) (.characterConverter x) = _ at h3
    generalize hra : (⟨.characterConverter x, substitute x.itemsMap.get? a, pa⟩ : ModifiedRecord) = ra at h1
    generalize hrb : (⟨.characterConverter x, substitute x.itemsMap.get? b, pb⟩ : ModifiedRecord) = rb at h2
    generalize hr : (⟨.characterConverter x, substitute x.itemsMap.get? a ++ substitute x.itemsMap.get? b, p⟩ :
      ModifiedRecord) = r at h3
    have ta : ra.text = substitute x.itemsMap.get? a := by rw [← hra]
    have tb : rb.text = substitute x.itemsMap.get? b := by rw [← hrb]
    have tr : r.text = ra.text ++ rb.text := by rw [ta, tb, ← hr]
    have qa : ra.positions = pa := by rw [← hra]
    have qb : rb.positions = pb := by rw [← hrb]
    have qr : r.positions = p := by rw [← hr]
    obtain ⟨ras, rbs, rs, oa, ob, g1, g2, g3, l1, l2, l3, g4⟩ := ih (fun m hm => h m (by simp [hm])) (i + 1)
      ra.text rb.text (acca ++ [ra]) (accb ++ [rb]) (acc ++ [r])
    refine ⟨ra :: ras, rb :: rbs, r :: rs, oa, ob, ?_, ?_, ?_, by simp [l1], by simp [l2], by simp [l3], ?_⟩
    · rw [List.zipIdx_cons, List.foldlM_cons]
      simp only [h1, Outcome.ok_bind, Outcome.pure_eq]
      simpa using g1
    · rw [List.zipIdx_cons, List.foldlM_cons]
      simp only [h2, Outcome.ok_bind, Outcome.pure_eq]
      simpa using g2
    · rw [List.zipIdx_cons, List.foldlM_cons]
      simp only [h3, Outcome.ok_bind, Outcome.pure_eq, tr]
      simpa using g3
    · intro j ra' rb' r' t j1 j2 j3 j4
      cases j with
      | zero =>
        simp only [List.getElem?_cons_zero, Option.some.injEq] at j1 j2 j3 j4
        subst j1 j2 j3 j4
        exact ⟨tr, by rw [qa, qb, qr]; exact h4⟩
      | succ j =>
        simp only [List.getElem?_cons_succ, List.map_cons] at j1 j2 j3 j4
        have := g4 j ra' rb' r' t j1 j2 j3 j4
        rw [show ra.text.length = a.length from by rw [ta]; simp [substitute]] at this
        exact this

/-- C91, converters one after the other: the records of a run over two texts put together are those
of the runs over the two, text after text, and in each record the positions of the second are moved
on: `index` by the characters of the first text, `utf8_index` by the bytes of the first text as this
converter got it. -/
theorem C91_converters (c : Chanoma) (h : ∀ m ∈ c.modifiers, ∃ x, m = .characterConverter x)
    (σa σb σ : Nat → Oracle) (a b : Str) :
    ∃ ras rbs rs, c.normalizeWithPositions σa a = .ok ⟨ras⟩ ∧
      c.normalizeWithPositions σb b = .ok ⟨rbs⟩ ∧ c.normalizeWithPositions σ (a ++ b) = .ok ⟨rs⟩ ∧
      ras.length = c.modifiers.length ∧ rbs.length = c.modifiers.length ∧ rs.length = c.modifiers.length ∧
      ∀ (j : Nat) (ra rb r : ModifiedRecord) (t : Str), ras[j]? = some ra → rbs[j]? = some rb →
        rs[j]? = some r → (a :: ras.map (·.text))[j]? = some t → r.text = ra.text ++ rb.text ∧
          r.positions.Perm (ra.positions ++ rb.positions.map (Position.moved a.length (strLen t))) := by
  obtain ⟨ras, rbs, rs, oa, ob, h1, h2, h3, h4⟩ := converters_joined σa σb σ c.modifiers h 0 a b [] [] []
  refine ⟨ras, rbs, rs, ?_, ?_, ?_, h4⟩
  · unfold Chanoma.normalizeWithPositions; rw [h1]; rfl
  · unfold Chanoma.normalizeWithPositions; rw [h2]; rfl
  · unfold Chanoma.normalizeWithPositions; rw [h3]; rfl

/-! ### Examples -/

/-- `ア` and `b` are converted: two bytes more than characters in the first text. -/
example : ∃ ra rb r,
    (ModifierKind.characterConverter ⟨[('ア', 'a'), ('b', 'B')]⟩).modifyWithPositions .insertion (c! "ア") = .ok ra ∧
    (ModifierKind.characterConverter ⟨[('ア', 'a'), ('b', 'B')]⟩).modifyWithPositions .insertion (c! "xb") = .ok rb ∧
    (ModifierKind.characterConverter ⟨[('ア', 'a'), ('b', 'B')]⟩).modifyWithPositions .insertion (c! "アxb") = .ok r ∧
    rb.positions = [⟨c! "b", c! "B", 1, 1, 1, 1⟩] ∧
    r.positions = [⟨c! "ア", c! "a", 0, 3, 0, 1⟩, ⟨c! "b", c! "B", 2, 1, 4, 1⟩] :=
  ⟨_, _, _, rfl, rfl, rfl, by decide +kernel, by decide +kernel⟩

/-- Two converters: the second one gets the `ア` of the first text as `a`, one byte long. -/
example : ∃ r, (⟨[.characterConverter ⟨[('ア', 'a')]⟩, .characterConverter ⟨[('b', 'B')]⟩]⟩ :
      Chanoma).normalizeWithPositions (fun _ => .insertion) (c! "アb") = .ok ⟨r⟩ ∧
    r.map (·.positions) = [[⟨c! "ア", c! "a", 0, 3, 0, 1⟩], [⟨c! "b", c! "B", 1, 1, 1, 1⟩]] :=
  ⟨_, rfl, by decide +kernel⟩

/-- The hypotheses of `C91_reducer` and of `C91_reducer_end`, and what is reported: the last run
of the second is moved on by the three bytes of `ア`, not by its one character. -/
example : (c! "アーーx").getLast? ≠ some 'ー' ∧ (c! "ーーy").getLast? ≠ some 'ー' ∧ (c! "yーー").getLast? = some 'ー' := by
  decide +kernel

example : ∃ rb r,
    (ModifierKind.consecutiveCharacterReducer ⟨'-'⟩).modifyWithPositions .insertion (c! "y--") = .ok rb ∧
    (ModifierKind.consecutiveCharacterReducer ⟨'-'⟩).modifyWithPositions .insertion (c! "アy--") = .ok r ∧
    rb.positions = [⟨c! "--", c! "-", 2, 2, 1, 2⟩] ∧ r.positions = [⟨c! "--", c! "-", 5, 2, 4, 2⟩] :=
  ⟨_, _, rfl, rfl, by decide +kernel, by decide +kernel⟩

/-- Without the condition on the end of the first text, the two runs become one. -/
example : ∃ ra rb r,
    (ModifierKind.consecutiveCharacterReducer ⟨'-'⟩).modifyWithPositions .insertion (c! "a-") = .ok ra ∧
    (ModifierKind.consecutiveCharacterReducer ⟨'-'⟩).modifyWithPositions .insertion (c! "-b") = .ok rb ∧
    (ModifierKind.consecutiveCharacterReducer ⟨'-'⟩).modifyWithPositions .insertion (c! "a--b") = .ok r ∧
    ra.positions.length = 1 ∧ rb.positions.length = 1 ∧ r.positions.length = 1 :=
  ⟨_, _, _, rfl, rfl, rfl, by decide +kernel, by decide +kernel, by decide +kernel⟩

example : ∃ ra rb r, ModifierKind.trim.modifyWithPositions .insertion (c! "  ア ") = .ok ra ∧
    ModifierKind.trim.modifyWithPositions .insertion (c! " b ") = .ok rb ∧
    ModifierKind.trim.modifyWithPositions .insertion (c! "  ア  b ") = .ok r ∧
    ra.positions.length = 2 ∧ rb.positions.length = 2 ∧
    r.positions = [⟨c! "  ", [], 0, 2, 0, 2⟩, ⟨c! " ", [], 8, 1, 6, 1⟩] :=
  ⟨_, _, _, rfl, rfl, rfl, by decide +kernel, by decide +kernel, by decide +kernel⟩

end Chanoma
