import Verif.Spec.Again
import Verif.Props.OneFile
import Verif.Props.Compare
import Verif.Props.Swap
import Verif.Props.Backwards
/-! # C95: normalising again and again -/

namespace Chanoma

/-! ### Passes that delete nothing -/

theorem compose_same_length (t : Str) (h : (composeMarks t).length = t.length) : composeMarks t = t := by
  induction t using compose_induction with
  | h0 => rfl
  | h1 a => rfl
  | h2 a m t b hv ih =>
    rw [compose_hit hv] at h
    have := (compose_len t).1
    simp only [List.length_cons] at h
    omega
  | h3 a m t hv ih =>
    rw [compose_keep hv] at h ⊢
    simp only [List.length_cons, Nat.add_right_cancel_iff] at h
    rw [ih (by simpa using h)]

theorem neologdn_same_length (t : Str) (h : (neologdnSpec t).length = t.length) :
    neologdnSpec t = t.map neologdnFold := by
  unfold neologdnSpec at h ⊢
  have h1 := (compose_len ((spaceRule (squeeze 'ー' (t.map neologdnFold))).filter (· ∉ tildeChars))).1
  have h2 : ((spaceRule (squeeze 'ー' (t.map neologdnFold))).filter (· ∉ tildeChars)).Sublist (t.map neologdnFold) :=
    List.filter_sublist.trans ((spaceRule_sublist _).trans (squeeze_sublist _ _))
  have h3 := h2.length_le
  rw [List.length_map] at h3
  rw [compose_same_length _ (by omega)]
  exact h2.eq_of_length (by rw [List.length_map]; omega)

/-- What is known of a modifier that is no ligature translator, and of a pipeline of such. -/
def Shrinks (f : Str → Str) (g : Char → Char) : Prop :=
  ∀ t, (f t).length ≤ t.length ∧ ((f t).length = t.length → f t = t.map g)

theorem sublist_shrinks {f : Str → Str} (h : ∀ t, (f t).Sublist t) : Shrinks f id :=
  fun t => ⟨(h t).length_le, fun e => by rw [(h t).eq_of_length e, List.map_id]⟩

theorem kind_shrinks {m : ModifierKind} (hw : m.WF) (hl : ∀ x, m ≠ .ligatureTranslator x) :
    ∃ f : Str → Str, (∀ σ t, m.modify σ t = .ok (f t)) ∧ Shrinks f m.onChar := by
  cases m with
  | characterConverter x =>
    exact ⟨substitute x.itemsMap.get?, fun σ t => modify_eq x σ t, fun t => ⟨by simp [substitute], fun _ => rfl⟩⟩
  | characterEliminator x =>
    exact ⟨x.modify, fun _ _ => rfl, sublist_shrinks fun t => by rw [eliminator_eq]; exact List.filter_sublist⟩
  | consecutiveCharacterReducer x =>
    exact ⟨x.modify, fun _ _ => rfl, sublist_shrinks fun t => by rw [reducer_eq]; exact squeeze_sublist _ _⟩
  | dottedSpaceEliminator =>
    exact ⟨dottedModify, fun _ _ => rfl, sublist_shrinks fun t => by rw [dotted_eq]; exact spaceRule_sublist _⟩
  | trim => exact ⟨trimModify, fun _ _ => rfl, sublist_shrinks fun t => trimMatches_sublist _ _⟩
  | ligatureTranslator x => exact absurd rfl (hl x)
  | neologdn x =>
    obtain ⟨σ, hσ⟩ := hw
    obtain ⟨x', h1, -, h2, -⟩ := neologdn_new σ
    rw [hσ] at h1; cases h1
    exact ⟨neologdnSpec, fun τ t => h2 τ t, fun t => ⟨(neologdn_len t).1, neologdn_same_length t⟩⟩

theorem run_shrinks {ms : List ModifierKind} (hw : ∀ m ∈ ms, m.WF)
    (hl : ∀ m ∈ ms, ∀ x, m ≠ .ligatureTranslator x) :
    ∃ f : Str → Str, (∀ (σs : Nat → Oracle) n t,
      (ms.zipIdx n).foldlM (fun acc m => m.1.modify (σs m.2) acc) t = .ok (f t)) ∧
      Shrinks f (fun ch => ms.foldl (fun ch m => m.onChar ch) ch) := by
  induction ms with
  | nil => exact ⟨id, fun σs n t => by simp, fun t => ⟨Nat.le_refl _, fun _ => by simp⟩⟩
  | cons m ms ih =>
    obtain ⟨f, hf, hs⟩ := kind_shrinks (hw m (by simp)) (hl m (by simp))
    obtain ⟨f', hf', hs'⟩ := ih (fun m hm => hw m (by simp [hm])) (fun m hm => hl m (by simp [hm]))
    refine ⟨fun t => f' (f t), fun σs n t => ?_, fun t => ⟨Nat.le_trans (hs' _).1 (hs t).1, fun e => ?_⟩⟩
    · rw [List.zipIdx_cons, List.foldlM_cons, hf, Outcome.ok_bind, hf']
    · show f' (f t) = _
      replace e : (f' (f t)).length = t.length := e
      have h1 := (hs t).1
      have h2 := (hs' (f t)).1
      rw [(hs' (f t)).2 (by omega), (hs t).2 (by omega), List.map_map]
      rfl

theorem normalize_shrinks {c : Chanoma} (hw : ∀ m ∈ c.modifiers, m.WF)
    (hl : ∀ m ∈ c.modifiers, ∀ x, m ≠ .ligatureTranslator x) :
    ∃ f : Str → Str, (∀ σs t, c.normalize σs false t = .ok (f t)) ∧ Shrinks f c.onChar := by
  obtain ⟨f, h1, h2⟩ := run_shrinks hw hl
  exact ⟨f, fun σs t => h1 σs 0 t, h2⟩

theorem repeat_add {α : Type} (f : α → α) (m n : Nat) (a : α) :
    Nat.repeat f (m + n) a = Nat.repeat f m (Nat.repeat f n a) := by
  induction m with
  | zero => simp [Nat.repeat]
  | succ m ih => rw [Nat.succ_add, Nat.repeat, ih, Nat.repeat]

theorem again_eq {c : Chanoma} {f : Str → Str} (h : ∀ σs t, c.normalize σs false t = .ok (f t))
    (seeds : Nat → Nat → Oracle) (text : Str) (n : Nat) : c.again seeds text n = .ok (Nat.repeat f n text) := by
  induction n with
  | zero => rfl
  | succ n ih => rw [Chanoma.again, ih, Outcome.ok_bind, h, Nat.repeat]

/-! ### Coming back -/

theorem exists_all_texts (n : Nat) : ∃ ts : List Str, ∀ t : Str, t.length ≤ n → t ∈ ts := by
  obtain ⟨cs, -, hcs⟩ := exists_all_chars
  induction n with
  | zero => exact ⟨[[]], fun t ht => by simp [List.eq_nil_of_length_eq_zero (Nat.le_zero.1 ht)]⟩
  | succ n ih =>
    obtain ⟨ts, hts⟩ := ih
    refine ⟨[] :: cs.flatMap fun c => ts.map fun t => c :: t, fun t ht => ?_⟩
    cases t with
    | nil => simp
    | cons c t =>
      refine List.mem_cons_of_mem _ (List.mem_flatMap.2 ⟨c, hcs c, List.mem_map.2 ⟨t, hts t ?_, rfl⟩⟩)
      simpa using ht

/-- A sequence that stays within a list comes back. -/
theorem comes_back {α : Type} [DecidableEq α] (l : List α) (s : Nat → α) (h : ∀ n, s n ∈ l) :
    ∃ i j, i < j ∧ s i = s j := by
  apply Classical.byContradiction
  intro hn
  have hnd : ((List.range (l.length + 1)).map s).Nodup := by
    refine List.Pairwise.map _ (fun a b hab e => ?_) (List.pairwise_lt_range (n := l.length + 1))
    exact hn ⟨a, b, hab, e⟩
  have := nodup_length_le hnd (l' := l) fun a ha => by
    obtain ⟨i, -, rfl⟩ := List.mem_map.1 ha
    exact h i
  rw [List.length_map, List.length_range] at this
  omega

theorem repeat_length {f : Str → Str} {g : Char → Char} (h : Shrinks f g) (t : Str) (n : Nat) :
    (Nat.repeat f n t).length ≤ t.length := by
  induction n with
  | zero => exact Nat.le_refl _
  | succ n ih => exact Nat.le_trans (h _).1 ih

theorem repeat_back {f : Str → Str} {g : Char → Char} (h : Shrinks f g) (t : Str) :
    ∃ i p, 0 < p ∧ Nat.repeat f (i + p) t = Nat.repeat f i t := by
  obtain ⟨ts, hts⟩ := exists_all_texts t.length
  obtain ⟨i, j, hij, e⟩ := comes_back ts (fun n => Nat.repeat f n t) fun n => hts _ (repeat_length h t n)
  exact ⟨i, j - i, by omega, by rw [show i + (j - i) = j by omega]; exact e.symm⟩

/-- C95: without ligature translators, a text that is normalised again and again comes back to a text it
has been before, and goes round from then on, whatever the hash orders. -/
theorem C95_goes_round {c : Chanoma} (hc : ApiBuilt c)
    (hl : ∀ m ∈ c.modifiers, ∀ x, m ≠ .ligatureTranslator x) (text : Str) :
    ∃ n p, 0 < p ∧ ∀ seeds seeds' m, n ≤ m → c.again seeds text (m + p) = c.again seeds' text m := by
  obtain ⟨f, h1, h2⟩ := normalize_shrinks (apiBuilt_wf hc) hl
  obtain ⟨i, p, hp, e⟩ := repeat_back h2 text
  refine ⟨i, p, hp, fun seeds seeds' m hm => ?_⟩
  rw [again_eq h1, again_eq h1, show m + p = (m - i) + (i + p) by omega, repeat_add, e, ← repeat_add,
    show m - i + i = m by omega]

theorem round_fixed {f : Str → Str} {g : Char → Char} (h : Shrinks f g) (hg : NoCycle g) {u : Str} {p : Nat}
    (hp : 0 < p) (e : Nat.repeat f p u = u) : f u = u := by
  have len : ∀ k, k ≤ p → (Nat.repeat f k u).length = u.length := by
    intro k hk
    have h1 := repeat_length h u k
    have h2 := repeat_length h (Nat.repeat f k u) (p - k)
    rw [← repeat_add, show p - k + k = p by omega, e] at h2
    omega
  have eq : ∀ k, k ≤ p → Nat.repeat f k u = u.map (Nat.repeat g k) := by
    intro k
    induction k with
    | zero => intro _; simp [Nat.repeat]
    | succ k ih =>
      intro hk
      have h1 := len (k + 1) hk
      have h2 := len k (by omega)
      rw [Nat.repeat] at h1 ⊢
      rw [(h _).2 (by omega), ih (by omega), List.map_map]
      rfl
  have h1 := (h u).2 (len 1 hp)
  have h2 := eq p (Nat.le_refl _)
  rw [e] at h2
  rw [h1]
  have h3 : ∀ ch ∈ u, g ch = ch := by
    intro ch hch
    refine hg ch p hp ?_
    obtain ⟨i, hi, rfl⟩ := List.mem_iff_getElem.1 hch
    have := congrArg (fun l => l[i]?) h2
    simp only [List.getElem?_map, List.getElem?_eq_getElem hi, Option.map_some, Option.some.injEq] at this
    exact this.symm
  conv => rhs; rw [← List.map_id u]
  exact List.map_congr_left fun ch hch => h3 ch hch

/-- C95: if moreover the converters take no character round in a circle, every text comes to rest. -/
theorem C95_settles {c : Chanoma} (hc : ApiBuilt c)
    (hl : ∀ m ∈ c.modifiers, ∀ x, m ≠ .ligatureTranslator x) (hg : NoCycle c.onChar) (text : Str) :
    ∃ n out, ∀ seeds m, n ≤ m → c.again seeds text m = .ok out := by
  obtain ⟨f, h1, h2⟩ := normalize_shrinks (apiBuilt_wf hc) hl
  obtain ⟨i, p, hp, e⟩ := repeat_back h2 text
  refine ⟨i, Nat.repeat f i text, fun seeds m hm => ?_⟩
  rw [again_eq h1]
  rw [Nat.add_comm, repeat_add] at e
  have fix := round_fixed h2 hg hp e
  have : ∀ k, Nat.repeat f (k + i) text = Nat.repeat f i text := by
    intro k
    induction k with
    | zero => simp
    | succ k ih => rw [Nat.succ_add, Nat.repeat, ih, fix]
  rw [show m = (m - i) + i by omega, this]

/-- C95: for a pipeline of character converters alone this is also necessary. -/
theorem C95_tables_iff {c : Chanoma} (hc : ∀ m ∈ c.modifiers, ∃ x, m = .characterConverter x) :
    (∀ text, ∃ n out, ∀ seeds m, n ≤ m → c.again seeds text m = .ok out) ↔ NoCycle c.onChar := by
  have hw : ∀ m ∈ c.modifiers, m.WF := fun m hm => by obtain ⟨x, rfl⟩ := hc m hm; trivial
  have hl : ∀ m ∈ c.modifiers, ∀ x, m ≠ .ligatureTranslator x := fun m hm => by
    obtain ⟨x, rfl⟩ := hc m hm; intro y; simp
  obtain ⟨f, h1, h2⟩ := normalize_shrinks hw hl
  constructor
  · intro h ch p hp e
    have hf : ∀ d, f [d] = [c.onChar d] := by
      intro d
      refine (h2 [d]).2 ?_
      obtain ⟨f', h3⟩ : ∃ f' : Str → Str, ∀ σs t, c.normalize σs false t = .ok (f' t) ∧ (f' t).length = t.length := by
        clear h1 h2 h e hw hl
        suffices ∀ ms : List ModifierKind, (∀ m ∈ ms, ∃ x, m = .characterConverter x) → ∃ f' : Str → Str,
            ∀ (σs : Nat → Oracle) n t, (ms.zipIdx n).foldlM (fun acc m => m.1.modify (σs m.2) acc) t = .ok (f' t) ∧
              (f' t).length = t.length by
          obtain ⟨f', h⟩ := this c.modifiers hc
          exact ⟨f', fun σs t => h σs 0 t⟩
        intro ms hms
        induction ms with
        | nil => exact ⟨id, fun σs n t => ⟨by simp, rfl⟩⟩
        | cons m ms ih =>
          obtain ⟨f', h⟩ := ih fun m hm => hms m (by simp [hm])
          obtain ⟨x, rfl⟩ := hms m (by simp)
          refine ⟨fun t => f' (substitute x.itemsMap.get? t), fun σs n t => ⟨?_, ?_⟩⟩
          · rw [List.zipIdx_cons, List.foldlM_cons, ModifierKind.modify, modify_eq, Outcome.ok_bind, (h σs _ _).1]
          · rw [(h σs 0 _).2]; simp [substitute]
      have h4 := h1 (fun _ => .insertion) [d]
      rw [(h3 _ _).1, Outcome.ok.injEq] at h4
      rw [← h4, (h3 (fun _ => .insertion) _).2]
    have hn : ∀ n, Nat.repeat f n [ch] = [Nat.repeat c.onChar n ch] := by
      intro n
      induction n with
      | zero => rfl
      | succ n ih => rw [Nat.repeat, ih, hf]; rfl
    have hk : ∀ k, Nat.repeat c.onChar (k * p) ch = ch := by
      intro k
      induction k with
      | zero => simp [Nat.repeat]
      | succ k ih => rw [Nat.succ_mul, repeat_add, e, ih]
    obtain ⟨n, out, ho⟩ := h [ch]
    have hnp : n ≤ n * p := Nat.le_mul_of_pos_right n hp
    have h3 := ho (fun _ _ => .insertion) (n * p) hnp
    have h4 := ho (fun _ _ => .insertion) (n * p + 1) (by omega)
    rw [again_eq h1, hn, hk] at h3
    rw [again_eq h1, hn, Nat.repeat, hk, ← h3] at h4
    simpa using h4
  · intro hg text
    obtain ⟨i, p, hp, e⟩ := repeat_back h2 text
    refine ⟨i, Nat.repeat f i text, fun seeds m hm => ?_⟩
    rw [again_eq h1]
    rw [Nat.add_comm, repeat_add] at e
    have fix := round_fixed h2 hg hp e
    have : ∀ k, Nat.repeat f (k + i) text = Nat.repeat f i text := by
      intro k
      induction k with
      | zero => simp
      | succ k ih => rw [Nat.succ_add, Nat.repeat, ih, fix]
    rw [show m = (m - i) + i by omega, this]

/-! ### Three passes -/

theorem spOk_squeeze_any {c : Char} (hc : c ≠ ' ') (t : Str) {p : Bool} (h : spOk p t = true) :
    spOk p (squeeze c t) = true := by
  induction t generalizing p with
  | nil => rfl
  | cons a t ih =>
    rw [squeeze]
    split
    · rename_i hh
      obtain ⟨rfl, hh⟩ := hh
      rw [spOk, if_neg hc] at h
      have := ih h
      cases t with
      | nil => simp at hh
      | cons b t =>
        simp at hh; subst hh
        have e : ∀ q, spOk q (squeeze b (b :: t)) = spOk true (squeeze b (b :: t)) := by
          intro q
          have hd := squeeze_head b (b :: t)
          cases hs : squeeze b (b :: t) with
          | nil => rfl
          | cons d s =>
            rw [hs] at hd
            simp at hd; subst hd
            rw [spOk, if_neg hc, spOk, if_neg hc]
        rw [e] at this ⊢
        exact this
    · rw [spOk] at h ⊢
      split
      · rename_i hh
        rw [if_pos hh] at h
        rw [squeeze_head]
        simp only [Bool.and_eq_true] at h ⊢
        exact ⟨h.1, ih h.2⟩
      · rename_i hh
        rw [if_neg hh] at h
        exact ih h

/-- The step is one of the deleting modifiers. -/
def Step.Deletes : Step → Prop
  | .eliminate _ | .reduce _ | .spaces | .trim => True
  | _ => False

theorem step_sublist {s : Step} (h : s.Deletes) (t : Str) : (s.act t).Sublist t := by
  cases s with
  | eliminate cs => exact List.filter_sublist
  | reduce c => exact squeeze_sublist _ _
  | spaces => rw [Step.act, ← dotted_eq_dGo, dotted_eq]; exact spaceRule_sublist _
  | trim => exact trimMatches_sublist _ _
  | _ => exact h.elim

theorem step_twice {s : Step} (h : s.Deletes) (t : Str) : s.act (s.act t) = s.act t := by
  cases s with
  | eliminate cs => simp [Step.act]
  | reduce c => simp only [Step.act]; exact squeeze_idem c t
  | spaces => simp only [Step.act, ← dotted_eq_dGo]; exact dotted_fix (dotted_spacesOk t)
  | trim =>
    simp only [Step.act]
    obtain ⟨-, -, -, h1, h2⟩ := trim_eq t
    obtain ⟨i, j, e, h3, h4⟩ := trim_eq (trimModify t)
    exact trim_unique (a := i) (b := j) (a' := 0) (b' := 0) (e.symm.trans (by simp)) h3 h4 h1 h2
  | _ => exact h.elim

theorem keep_eliminate {s : Step} (hs : s.Deletes) (cs : List Char) {t : Str}
    (h : (Step.eliminate cs).act t = t) : (Step.eliminate cs).act (s.act t) = s.act t := by
  simp only [Step.act, List.filter_eq_self] at h ⊢
  exact fun c hc => h c ((step_sublist hs t).subset hc)

theorem keep_trim {s : Step} (hs : s.Deletes) (he : ∀ cs, s ≠ .eliminate cs) {t : Str}
    (h : Step.trim.act t = t) : Step.trim.act (s.act t) = s.act t := by
  have : MaySwap s .trim := by
    cases s with
    | eliminate cs => exact absurd rfl (he cs)
    | reduce c => trivial
    | spaces => trivial
    | trim => trivial
    | _ => exact hs.elim
  rw [act_swap this, h]

theorem keep_spaces {s : Step} (hs : s.Deletes) (he : ∀ cs, s ≠ .eliminate cs) {t : Str}
    (h : Step.spaces.act t = t) : Step.spaces.act (s.act t) = s.act t := by
  cases s with
  | eliminate cs => exact absurd rfl (he cs)
  | reduce c =>
    by_cases hc : c = ' '
    · rw [act_swap (s := .reduce c) (s' := .spaces) (.inl hc), h]
    · simp only [Step.act, ← dotted_eq_dGo] at h ⊢
      refine dotted_fix ((spacesOk_iff _).2 (spOk_squeeze_any hc t ((spacesOk_iff t).1 ?_)))
      rw [← h]; exact dotted_spacesOk t
  | spaces => rw [h, h]
  | trim => rw [act_swap (s := .trim) (s' := .spaces) trivial, h]
  | _ => exact hs.elim

/-- A pass settles a step for good if the others do not undo it. -/
theorem pass_settles {Inv : Str → Prop} {s : Step} (hs : s.Deletes) {ss : List Step} (hmem : s ∈ ss)
    (hInv : ∀ s' ∈ ss, ∀ t, Inv t → Inv (s'.act t))
    (hkeep : ∀ s' ∈ ss, ∀ t, Inv t → s.act t = t → s.act (s'.act t) = s'.act t) (t : Str) (ht : Inv t) :
    s.act (ss.foldl (fun t s => s.act t) t) = ss.foldl (fun t s => s.act t) t := by
  have later : ∀ (ss : List Step), (∀ s' ∈ ss, ∀ t, Inv t → Inv (s'.act t)) →
      (∀ s' ∈ ss, ∀ t, Inv t → s.act t = t → s.act (s'.act t) = s'.act t) → ∀ t, Inv t → s.act t = t →
      s.act (ss.foldl (fun t s => s.act t) t) = ss.foldl (fun t s => s.act t) t := by
    intro ss
    induction ss with
    | nil => intro _ _ t _ h; exact h
    | cons s' ss ih =>
      intro h1 h2 t h3 h4
      exact ih (fun s hs => h1 s (by simp [hs])) (fun s hs => h2 s (by simp [hs])) _
        (h1 _ (by simp) t h3) (h2 _ (by simp) t h3 h4)
  induction ss generalizing t with
  | nil => simp at hmem
  | cons s' ss ih =>
    rcases List.mem_cons.1 hmem with rfl | hm
    · exact later ss (fun s hs => hInv s (by simp [hs])) (fun s hs => hkeep s (by simp [hs])) _
        (hInv _ (by simp) t ht) (step_twice hs t)
    · exact ih hm (fun s hs => hInv s (by simp [hs])) (fun s hs => hkeep s (by simp [hs])) _
        (hInv _ (by simp) t ht)

theorem inv_pass {Inv : Str → Prop} {ss : List Step} (h : ∀ s' ∈ ss, ∀ t, Inv t → Inv (s'.act t)) (t : Str)
    (ht : Inv t) : Inv (ss.foldl (fun t s => s.act t) t) := by
  induction ss generalizing t with
  | nil => exact ht
  | cons s ss ih => exact ih (fun s hs => h s (by simp [hs])) _ (h s (by simp) t ht)

theorem three_passes {ss : List Step} (hss : ∀ s ∈ ss, s.Deletes) (t : Str) :
    ∀ s ∈ ss, s.act (Nat.repeat (fun t => ss.foldl (fun t s => s.act t) t) 3 t) =
      Nat.repeat (fun t => ss.foldl (fun t s => s.act t) t) 3 t := by
  let P : Str → Str := fun t => ss.foldl (fun t s => s.act t) t
  let Elim : Str → Prop := fun t => ∀ cs, Step.eliminate cs ∈ ss → (Step.eliminate cs).act t = t
  let Sp : Str → Prop := fun t => Elim t ∧ (Step.spaces ∈ ss → Step.spaces.act t = t) ∧
    (Step.trim ∈ ss → Step.trim.act t = t)
  have elimKeep : ∀ s' ∈ ss, ∀ t, Elim t → Elim (s'.act t) :=
    fun s' hs' t ht cs hcs => keep_eliminate (hss s' hs') cs (ht cs hcs)
  have spKeep : ∀ s' ∈ ss, ∀ t, Sp t → Sp (s'.act t) := by
    intro s' hs' t ht
    by_cases he : ∃ cs, s' = .eliminate cs
    · obtain ⟨cs, rfl⟩ := he
      rw [ht.1 cs hs']; exact ht
    · have he' : ∀ cs, s' ≠ .eliminate cs := fun cs e => he ⟨cs, e⟩
      exact ⟨elimKeep s' hs' t ht.1, fun h => keep_spaces (hss s' hs') he' (ht.2.1 h),
        fun h => keep_trim (hss s' hs') he' (ht.2.2 h)⟩
  have p1 : Elim (P t) := fun cs hcs =>
    pass_settles (Inv := fun _ => True) (s := .eliminate cs) trivial hcs (fun _ _ _ _ => trivial)
      (fun s' hs' t _ h => keep_eliminate (hss s' hs') cs h) t trivial
  have p2 : Sp (P (P t)) := by
    refine ⟨inv_pass elimKeep _ p1, fun h => ?_, fun h => ?_⟩
    · refine pass_settles (Inv := Elim) (s := .spaces) trivial h elimKeep (fun s' hs' t ht h => ?_) _ p1
      by_cases he : ∃ cs, s' = .eliminate cs
      · obtain ⟨cs, rfl⟩ := he
        rw [ht cs hs']; exact h
      · exact keep_spaces (hss s' hs') (fun cs e => he ⟨cs, e⟩) h
    · refine pass_settles (Inv := Elim) (s := .trim) trivial h elimKeep (fun s' hs' t ht h => ?_) _ p1
      by_cases he : ∃ cs, s' = .eliminate cs
      · obtain ⟨cs, rfl⟩ := he
        rw [ht cs hs']; exact h
      · exact keep_trim (hss s' hs') (fun cs e => he ⟨cs, e⟩) h
  intro s hs
  show s.act (P (P (P t))) = P (P (P t))
  have p3 := inv_pass spKeep _ p2
  cases s with
  | eliminate cs => exact p3.1 cs hs
  | spaces => exact p3.2.1 hs
  | trim => exact p3.2.2 hs
  | reduce c =>
    refine pass_settles (Inv := Sp) (s := .reduce c) trivial hs spKeep (fun s' hs' t ht h => ?_) _ p2
    cases s' with
    | eliminate cs => rw [ht.1 cs hs']; exact h
    | spaces => rw [ht.2.1 hs']; exact h
    | trim => rw [ht.2.2 hs']; exact h
    | reduce d => rw [act_swap (s := .reduce d) (s' := .reduce c) trivial, h]
    | _ => exact (hss _ hs').elim
  | _ => exact (hss _ hs).elim

/-- The step of a deleting modifier. -/
theorem deletes_step {m : ModifierKind} (h : m.Deletes) : ∃ s : Step, s.Deletes ∧ ∀ σ t, m.modify σ t = .ok (s.act t) := by
  cases m with
  | characterEliminator x =>
    exact ⟨.eliminate x.chars, trivial, fun σ t => congrArg Outcome.ok (eliminator_eq x t)⟩
  | consecutiveCharacterReducer x => exact ⟨.reduce x.c, trivial, fun σ t => congrArg Outcome.ok (reducer_eq x t)⟩
  | dottedSpaceEliminator => exact ⟨.spaces, trivial, fun σ t => congrArg Outcome.ok (dotted_eq_dGo t)⟩
  | trim => exact ⟨.trim, trivial, fun σ t => rfl⟩
  | _ => exact h.elim

theorem deletes_normalize {c : Chanoma} (hc : ∀ m ∈ c.modifiers, m.Deletes) : ∃ ss : List Step,
    (∀ s ∈ ss, s.Deletes) ∧ ∀ σs t, c.normalize σs false t = .ok (ss.foldl (fun t s => s.act t) t) := by
  suffices ∀ ms : List ModifierKind, (∀ m ∈ ms, m.Deletes) → ∃ ss : List Step, (∀ s ∈ ss, s.Deletes) ∧
      ∀ (σs : Nat → Oracle) n t, (ms.zipIdx n).foldlM (fun acc m => m.1.modify (σs m.2) acc) t =
        .ok (ss.foldl (fun t s => s.act t) t) by
    obtain ⟨ss, h1, h2⟩ := this c.modifiers hc
    exact ⟨ss, h1, fun σs t => h2 σs 0 t⟩
  intro ms hms
  induction ms with
  | nil => exact ⟨[], by simp, fun σs n t => by simp⟩
  | cons m ms ih =>
    obtain ⟨ss, h1, h2⟩ := ih fun m hm => hms m (by simp [hm])
    obtain ⟨s, h3, h4⟩ := deletes_step (hms m (by simp))
    refine ⟨s :: ss, fun s' hs' => ?_, fun σs n t => ?_⟩
    · rcases List.mem_cons.1 hs' with rfl | h
      · exact h3
      · exact h1 s' h
    · rw [List.zipIdx_cons, List.foldlM_cons, h4, Outcome.ok_bind, h2]; rfl

/-- C95: if all modifiers only delete, three passes are enough, whatever the pipeline and the text. -/
theorem C95_three_passes {c : Chanoma} (hc : ∀ m ∈ c.modifiers, m.Deletes) (seeds seeds' : Nat → Nat → Oracle)
    (text : Str) (n : Nat) : c.again seeds text (n + 3) = c.again seeds' text 3 := by
  obtain ⟨ss, h1, h2⟩ := deletes_normalize hc
  rw [again_eq h2, again_eq h2]
  have fix := three_passes h1 text
  have : ∀ u, (∀ s ∈ ss, s.act u = u) → ss.foldl (fun t s => s.act t) u = u := by
    clear h1 h2 fix
    intro u
    induction ss with
    | nil => intro _; rfl
    | cons s ss ih =>
      intro h
      rw [List.foldl_cons, h s (by simp)]
      exact ih fun s hs => h s (by simp [hs])
  induction n with
  | zero => simp
  | succ n ih =>
    rw [Nat.succ_add, Nat.repeat]
    rw [Outcome.ok.injEq] at ih ⊢
    rw [ih]
    exact this _ fix

/-- C95: two passes are not. -/
theorem C95_three_needed (seeds : Nat → Nat → Oracle) :
    let c : Chanoma := ⟨[.consecutiveCharacterReducer ⟨'ー'⟩, .dottedSpaceEliminator, .characterEliminator ⟨['a']⟩]⟩
    c.again seeds (c! "ーa aー") 2 = .ok (c! "ーー") ∧ c.again seeds (c! "ーa aー") 3 = .ok (c! "ー") :=
  ⟨rfl, rfl⟩

/-! ### Any number of passes -/

theorem compose_nested (k : Nat) : composeMarks (List.replicate (k + 1) 'か' ++ List.replicate (k + 1) '゛') =
    List.replicate k 'か' ++ 'が' :: List.replicate k '゛' := by
  have marks : ∀ k, composeMarks (List.replicate k '゛') = List.replicate k '゛' := by
    intro k
    induction k with
    | zero => rfl
    | succ k ih =>
      cases k with
      | zero => rfl
      | succ k => rw [List.replicate_succ, List.replicate_succ, compose_keep (by decide), ← List.replicate_succ, ih]
  have : ∀ j, composeMarks (List.replicate (j + 1) 'か' ++ List.replicate (k + 1) '゛') =
      List.replicate j 'か' ++ 'が' :: List.replicate k '゛' := by
    intro j
    induction j with
    | zero =>
      show composeMarks ('か' :: '゛' :: List.replicate k '゛') = _
      rw [compose_hit (b := 'が') (by decide), marks]; rfl
    | succ j ih =>
      rw [List.replicate_succ, List.replicate_succ, List.cons_append, List.cons_append,
        compose_keep (by decide), ← List.cons_append, ← List.replicate_succ, ih]; rfl
  exact this k

theorem neologdn_nested (k : Nat) : neologdnSpec (List.replicate (k + 1) 'か' ++ List.replicate (k + 1) '゛') =
    List.replicate k 'か' ++ 'が' :: List.replicate k '゛' := by
  have mem : ∀ ch ∈ List.replicate (k + 1) 'か' ++ List.replicate (k + 1) '゛', ch = 'か' ∨ ch = '゛' := by
    intro ch hch
    rcases List.mem_append.1 hch with h | h
    · exact .inl (List.eq_of_mem_replicate h)
    · exact .inr (List.eq_of_mem_replicate h)
  rw [← compose_nested k]
  generalize List.replicate (k + 1) 'か' ++ List.replicate (k + 1) '゛' = t at *
  have h1 : t.map neologdnFold = t := by
    conv => rhs; rw [← List.map_id t]
    refine List.map_congr_left fun ch hch => ?_
    rcases mem ch hch with rfl | rfl <;> decide +kernel
  have h2 : squeeze 'ー' t = t := squeeze_fix fun u v e => by
    rcases mem 'ー' (by rw [e]; simp) with h | h <;> exact absurd h (by decide)
  have h3 : spaceRule t = t := by
    rw [← dotted_eq]
    refine dotted_fix fun u v e => ?_
    rcases mem ' ' (by rw [e]; simp) with h | h <;> exact absurd h (by decide)
  have h4 : t.filter (· ∉ tildeChars) = t := by
    rw [List.filter_eq_self]
    intro ch hch
    rcases mem ch hch with rfl | rfl <;> decide
  rw [neologdnSpec, h1, h2, h3, h4]

/-- C95: with neologdn and an eliminator no number of passes is enough for all texts: each pass takes away
one pair of a text of `n` letters `か` followed by `n` sound marks. -/
theorem C95_any_number (σ : Oracle) (x : Neologdn) (hx : Neologdn.new σ = .ok x) (seeds : Nat → Nat → Oracle)
    (k n : Nat) :
    (Chanoma.mk [.neologdn x, .characterEliminator ⟨['が']⟩]).again seeds
      (List.replicate (k + n) 'か' ++ List.replicate (k + n) '゛') n =
      .ok (List.replicate k 'か' ++ List.replicate k '゛') := by
  obtain ⟨x', h1, -, h2, -⟩ := neologdn_new σ
  rw [hx] at h1; cases h1
  have hf : ∀ σs t, (Chanoma.mk [.neologdn x, .characterEliminator ⟨['が']⟩]).normalize σs false t =
      .ok ((neologdnSpec t).filter fun c => c ∉ ['が']) := by
    intro σs t
    simp only [Chanoma.normalize, Bool.not_false, if_true, List.zipIdx_cons, List.zipIdx_nil, List.foldlM_cons,
      List.foldlM_nil, ModifierKind.modify, h2, Outcome.ok_bind, Outcome.pure_eq, eliminator_eq]
  rw [again_eq hf]
  congr 1
  induction n with
  | zero => rfl
  | succ n ih =>
    rw [repeat_add _ n 1]
    simp only [Nat.repeat]
    rw [show k + (n + 1) = k + n + 1 from rfl, neologdn_nested, ← ih]
    congr 1
    rw [List.filter_append, List.filter_cons_of_neg (by decide), List.filter_eq_self.2, List.filter_eq_self.2]
    · intro a ha; rw [List.eq_of_mem_replicate ha]; decide
    · intro a ha; rw [List.eq_of_mem_replicate ha]; decide

/-- C95: with a ligature translator a text can grow for ever: with the rule `a` to `aa` it doubles in
each pass. -/
theorem C95_growing (seeds : Nat → Nat → Oracle) (n : Nat) :
    (Chanoma.mk [.ligatureTranslator ⟨[(c! "a", c! "aa")]⟩]).again seeds (c! "a") n =
      .ok (List.replicate (2 ^ n) 'a') := by
  have hf : ∀ σs t, (Chanoma.mk [.ligatureTranslator ⟨[(c! "a", c! "aa")]⟩]).normalize σs false t =
      .ok (strReplace (c! "a") (c! "aa") t) := by
    intro σs t
    simp only [Chanoma.normalize, Bool.not_false, if_true, List.zipIdx_cons, List.zipIdx_nil, List.foldlM_cons,
      List.foldlM_nil, ModifierKind.modify, one_rule, Outcome.ok_bind, Outcome.pure_eq]
  have hr : ∀ k, strReplace (c! "a") (c! "aa") (List.replicate k 'a') = List.replicate (2 * k) 'a' := by
    intro k
    induction k with
    | zero => rfl
    | succ k ih =>
      rw [List.replicate_succ, show 'a' :: List.replicate k 'a' = c! "a" ++ List.replicate k 'a' from rfl,
        strReplace_hit (by decide), ih]
      rw [show 2 * (k + 1) = 2 * k + 1 + 1 by omega, List.replicate_succ, List.replicate_succ]; rfl
  rw [again_eq hf]
  congr 1
  induction n with
  | zero => rfl
  | succ n ih => rw [Nat.repeat, ih, hr, Nat.pow_succ, Nat.mul_comm]

/-! ### Examples -/

theorem noCycle_of_twice {g : Char → Char} (h : ∀ ch, g (g ch) = g ch) : NoCycle g := by
  intro ch n hn e
  obtain ⟨n, rfl⟩ : ∃ k, n = k + 1 := ⟨n - 1, by omega⟩
  rw [Nat.repeat] at e
  rw [← e, h]

/-- A converter as in `C95_goes_round` and `C95_settles`: neologdn. -/
example (σ : Oracle) : ∃ c, ApiBuilt c ∧ (∀ m ∈ c.modifiers, ∀ x, m ≠ .ligatureTranslator x) ∧ NoCycle c.onChar := by
  obtain ⟨x, h1, -⟩ := neologdn_new σ
  have h : Chanoma.neologdn σ = .ok ⟨[.neologdn x]⟩ := by simp [Chanoma.neologdn, h1]
  refine ⟨_, .neologdn h, fun m hm y => ?_, noCycle_of_twice fun ch => ?_⟩
  · rw [List.mem_singleton.1 hm]; simp
  · exact neologdnFold_idem ch

/-- Pipelines as in `C95_tables_iff`: `a` to `b` to `d` comes to rest, `a` to `b` to `a` does not. -/
example : NoCycle (image [('a', 'b'), ('b', 'd')]) ∧ ¬ NoCycle (image [('a', 'b'), ('b', 'a')]) := by
  refine ⟨fun ch n hn e => ?_, fun h => absurd (h 'a' 2 (by decide) (by decide)) (by decide)⟩
  have h2 : ∀ ch, image [('a', 'b'), ('b', 'd')] (image [('a', 'b'), ('b', 'd')] ch) =
      if ch = 'a' ∨ ch = 'b' then 'd' else ch := by
    intro ch
    by_cases h1 : ch = 'a'
    · subst h1; decide
    · by_cases h2 : ch = 'b'
      · subst h2; decide
      · have : image [('a', 'b'), ('b', 'd')] ch = ch := by simp [image, lastPair, Ne.symm h1, Ne.symm h2]
        rw [this, this]; simp [h1, h2]
  by_cases h : ch = 'a' ∨ ch = 'b'
  · have hd : ∀ k, Nat.repeat (image [('a', 'b'), ('b', 'd')]) k 'd' = 'd' := by
      intro k
      induction k with
      | zero => rfl
      | succ k ih => rw [Nat.repeat, ih]; decide
    match n, hn with
    | 1, _ => exact e
    | n + 2, _ =>
      rw [repeat_add _ n 2, show Nat.repeat (image [('a', 'b'), ('b', 'd')]) 2 ch = _ from h2 ch, if_pos h, hd] at e
      rcases h with rfl | rfl <;> exact absurd e (by decide)
  · simp only [not_or] at h
    simp [image, lastPair, Ne.symm h.1, Ne.symm h.2]

/-- A pipeline as in `C95_three_passes`. -/
example : ∀ m ∈ (Chanoma.mk [.consecutiveCharacterReducer ⟨'ー'⟩, .dottedSpaceEliminator,
    .characterEliminator ⟨['a']⟩, .trim]).modifiers, m.Deletes := by
  intro m hm
  simp only [List.mem_cons, List.not_mem_nil, or_false] at hm
  rcases hm with rfl | rfl | rfl | rfl <;> trivial

end Chanoma
