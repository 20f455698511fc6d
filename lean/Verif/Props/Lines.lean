import Verif.Props.Pipeline
import Verif.Props.Neologdn
import Verif.Spec.Lines
/-! # C60: normalising line by line -/

namespace Chanoma

/-- `f` treats the pieces before and after `sep` separately. -/
def Cuts (sep : Char) (f : Str → Str) : Prop := ∀ a b, f (a ++ sep :: b) = f a ++ sep :: f b

theorem Cuts.map {sep : Char} {g : Char → Char} (h : g sep = sep) : Cuts sep (·.map g) := by
  intro a b; simp [h]

theorem Cuts.filter {sep : Char} {g : Char → Bool} (h : g sep = true) : Cuts sep (·.filter g) := by
  intro a b; simp [h]

theorem Cuts.comp {sep : Char} {f g : Str → Str} (hf : Cuts sep f) (hg : Cuts sep g) :
    Cuts sep (fun t => f (g t)) := by
  intro a b; show f (g (a ++ sep :: b)) = _; rw [hg a b, hf]

theorem Cuts.squeeze {sep c : Char} (h : c ≠ sep) : Cuts sep (squeeze c) := by
  intro a b
  rw [squeeze_append c a (sep :: b) (fun e => h (by simpa using e.2.symm))]
  congr 1
  rw [Chanoma.squeeze, if_neg (fun e => h e.1.symm)]

theorem dGo_cut {sep : Char} (h1 : sep ≠ ' ') (h2 : isAsciiAlphanumeric sep = false) (a b : Str) :
    ∀ p sp, dGo p sp (a ++ sep :: b) = dGo p sp a ++ sep :: dGo false false b := by
  induction a with
  | nil => intro p sp; simp [dGo, h1, h2]
  | cons c a ih =>
    intro p sp
    rw [List.cons_append, dGo, dGo]
    split
    · exact ih _ _
    · rw [ih]; simp

theorem Cuts.spaceRule {sep : Char} (h1 : sep ≠ ' ') (h2 : ¬ IsAlnum (some sep)) :
    Cuts sep spaceRule := by
  intro a b
  have h3 : isAsciiAlphanumeric sep = false := by
    rw [Bool.eq_false_iff]; intro h; exact h2 ((isAlnum_iff sep).mp h)
  simp only [← dotted_eq, dotted_eq_dGo]
  exact dGo_cut h1 h3 a b false false

theorem Cuts.compose {sep : Char} (h : ∀ a, voiced sep a = none ∧ voiced a sep = none) :
    Cuts sep composeMarks := by
  have hs : ∀ b, composeMarks (sep :: b) = sep :: composeMarks b := by
    intro b
    cases b with
    | nil => rfl
    | cons m b => exact compose_keep (h m).1 b
  intro a b
  induction a using compose_induction with
  | h0 => rw [compose_nil]; exact hs b
  | h1 a =>
    rw [compose_one, List.cons_append, List.nil_append, compose_keep (h a).2, hs]; rfl
  | h2 a m t c hv ih =>
    rw [List.cons_append, List.cons_append, compose_hit hv, compose_hit hv, ih]; rfl
  | h3 a m t hv ih =>
    rw [List.cons_append, List.cons_append, compose_keep hv, compose_keep hv]
    rw [List.cons_append] at ih
    rw [ih]; rfl

theorem Cuts.neologdn {sep : Char} (h : CutsNeologdn sep) : Cuts sep neologdnSpec := by
  obtain ⟨h1, h2, h3, h4, h5, h6⟩ := h
  exact (Cuts.compose h6).comp ((Cuts.filter (by simp [h2])).comp
    ((Cuts.spaceRule h3 h5).comp ((Cuts.squeeze fun e => h4 e.symm).comp (Cuts.map h1))))

theorem Cuts.strReplace {sep : Char} {k : Str} (v : Str) (h : sep ∉ k) : Cuts sep (strReplace k v) := by
  by_cases hk : k = []
  · subst hk; intro a b; simp [Chanoma.strReplace]
  · intro a b
    suffices ∀ n, ∀ a : Str, a.length ≤ n → Chanoma.strReplace k v (a ++ sep :: b) =
        Chanoma.strReplace k v a ++ sep :: Chanoma.strReplace k v b from this a.length a (Nat.le_refl _)
    have hns : ¬ k <+: sep :: b := by
      intro hp
      cases k with
      | nil => exact hk rfl
      | cons c k =>
        rw [List.cons_prefix_cons] at hp
        exact h (by simp [hp.1])
    intro n
    induction n with
    | zero =>
      intro a ha
      rw [List.length_eq_zero_iff.mp (Nat.le_zero.mp ha), strReplace_nil hk, List.nil_append,
        strReplace_keep hk v hns]; rfl
    | succ n ih =>
      intro a ha
      by_cases hp : k <+: a
      · obtain ⟨t, rfl⟩ := hp
        have := List.length_pos_iff.mpr hk
        rw [List.append_assoc, strReplace_hit hk, strReplace_hit hk, ih t (by simp at ha; omega),
          List.append_assoc]
      · cases a with
        | nil =>
          rw [strReplace_nil hk, List.nil_append, strReplace_keep hk v hns]; rfl
        | cons c a =>
          have hp2 : ¬ k <+: c :: (a ++ sep :: b) := by
            intro h2
            rcases prefix_append_cases (s := c :: a) h2 with h3 | ⟨s, hs⟩
            · exact hp h3
            · apply hp
              obtain ⟨u, hu⟩ := h2
              rw [← hs, List.append_assoc] at hu
              have hu2 : s ++ u = sep :: b := List.append_cancel_left (as := c :: a) hu
              cases s with
              | nil => rw [← hs]; simp
              | cons d s =>
                simp only [List.cons_append, List.cons.injEq] at hu2
                exact absurd (by rw [← hs]; simp [hu2.1]) h
          rw [List.cons_append, strReplace_keep hk v hp2, ih a (by simpa using ha),
            strReplace_keep hk v hp]; rfl

/-- C60, for one modifier: a text is modified piece by piece. -/
theorem C60_modifier (sep : Char) (m : ModifierKind) (h : LineSafe sep m) (σ : Oracle)
    (a b oa ob : Str) (ha : m.modify σ a = .ok oa) (hb : m.modify σ b = .ok ob) :
    m.modify σ (a ++ sep :: b) = .ok (oa ++ sep :: ob) := by
  suffices ∃ f, Cuts sep f ∧ ∀ t, m.modify σ t = .ok (f t) by
    obtain ⟨f, hf, hm⟩ := this
    rw [hm] at ha hb ⊢
    cases ha; cases hb
    rw [hf]
  cases m with
  | characterConverter x =>
    refine ⟨substitute x.itemsMap.get?, ?_, fun t => modify_eq x σ t⟩
    unfold substitute
    exact Cuts.map (by simp [show x.itemsMap.get? sep = none from h])
  | characterEliminator x =>
    refine ⟨_, ?_, fun t => congrArg Outcome.ok (eliminator_eq x t)⟩
    exact Cuts.filter (by simpa using show sep ∉ x.chars from h)
  | consecutiveCharacterReducer x =>
    exact ⟨_, Cuts.squeeze h, fun t => congrArg Outcome.ok (reducer_eq x t)⟩
  | dottedSpaceEliminator =>
    exact ⟨_, Cuts.spaceRule h.1 h.2, fun t => congrArg Outcome.ok (dotted_eq t)⟩
  | ligatureTranslator x =>
    refine ⟨fun t => x.modify σ t, ?_, fun t => rfl⟩
    have hr : ∀ r ∈ σ.iter x.map, sep ∉ r.1 :=
      fun r hr => h r ((σ.iter_perm x.map).mem_iff.mp hr)
    intro a b
    simp only [LigatureTranslator.modify]
    generalize σ.iter x.map = rs at hr
    induction rs generalizing a b with
    | nil => rfl
    | cons r rs ih =>
      simp only [List.foldl_cons]
      rw [Cuts.strReplace r.2 (hr r (by simp)) a b]
      exact ih _ _ (fun r' h' => hr r' (by simp [h']))
  | trim => exact absurd h id
  | neologdn x =>
    obtain ⟨hs, σ', hx⟩ := h
    obtain ⟨x', h1, -, h2, -⟩ := neologdn_new σ'
    rw [h1] at hx; cases hx
    exact ⟨neologdnSpec, Cuts.neologdn hs, fun t => h2 σ t⟩

theorem lines_fold {sep : Char} (σs : Nat → Oracle) (ms : List ModifierKind)
    (h : ∀ m ∈ ms, LineSafe sep m) : ∀ (i : Nat) (a b oa ob : Str),
    (ms.zipIdx i).foldlM (fun acc m => m.1.modify (σs m.2) acc) a = .ok oa →
    (ms.zipIdx i).foldlM (fun acc m => m.1.modify (σs m.2) acc) b = .ok ob →
    (ms.zipIdx i).foldlM (fun acc m => m.1.modify (σs m.2) acc) (a ++ sep :: b) =
      .ok (oa ++ sep :: ob) := by
  induction ms with
  | nil => intro i a b oa ob ha hb; cases ha; cases hb; rfl
  | cons m ms ih =>
    intro i a b oa ob ha hb
    simp only [List.zipIdx_cons, List.foldlM_cons, bind_eq_ok] at ha hb ⊢
    obtain ⟨a1, ha1, ha2⟩ := ha
    obtain ⟨b1, hb1, hb2⟩ := hb
    exact ⟨_, C60_modifier sep m (h m (by simp)) _ _ _ _ _ ha1 hb1,
      ih (fun m hm => h m (by simp [hm])) _ _ _ _ _ ha2 hb2⟩

/-- C60: a pipeline of such modifiers normalises a text line by line, for every hash order and
log level. -/
theorem C60_line_by_line (sep : Char) (c : Chanoma) (hc : ApiBuilt c)
    (h : ∀ m ∈ c.modifiers, LineSafe sep m) (σs : Nat → Oracle) (debug : Bool)
    (lines outs : List Str) (hne : lines ≠ [])
    (ho : lines.map (c.normalize σs debug) = outs.map .ok) :
    c.normalize σs debug ([sep].intercalate lines) = .ok ([sep].intercalate outs) := by
  have two : ∀ a b oa ob, c.normalize σs debug a = .ok oa → c.normalize σs debug b = .ok ob →
      c.normalize σs debug (a ++ sep :: b) = .ok (oa ++ sep :: ob) := by
    have hf : ∀ a b oa ob, c.normalize σs false a = .ok oa → c.normalize σs false b = .ok ob →
        c.normalize σs false (a ++ sep :: b) = .ok (oa ++ sep :: ob) := by
      intro a b oa ob ha hb
      simp only [Chanoma.normalize, Bool.not_false, if_true] at ha hb ⊢
      exact lines_fold σs c.modifiers h 0 a b oa ob ha hb
    intro a b oa ob ha hb
    cases debug with
    | false => exact hf a b oa ob ha hb
    | true =>
      by_cases hm : c.modifiers = []
      · exfalso
        have : c = Chanoma.new := by cases c; simp only at hm; subst hm; rfl
        subst this
        rw [(C21_empty_pipeline σs a).1] at ha
        cases ha
      · rw [C21_debug_partial c hc hm] at ha hb ⊢
        exact hf a b oa ob ha hb
  induction lines generalizing outs with
  | nil => exact absurd rfl hne
  | cons a lines ih =>
    cases outs with
    | nil => simp at ho
    | cons oa outs =>
      simp only [List.map_cons, List.cons.injEq] at ho
      cases lines with
      | nil =>
        cases outs with
        | nil => simpa [List.intercalate] using ho.1
        | cons _ _ => simp at ho
      | cons b lines =>
        cases outs with
        | nil => simp at ho
        | cons ob outs =>
          have := ih (ob :: outs) (by simp) ho.2
          have e : ∀ (x y : Str) (l : List Str),
              [sep].intercalate (x :: y :: l) = x ++ sep :: [sep].intercalate (y :: l) := by
            intro x y l; simp [List.intercalate]
          rw [e, e]
          exact two _ _ _ _ ho.1 this

theorem cutsNeologdn_of {sep : Char} (h1 : neologdnFold sep = sep ∧ sep ∉ tildeChars ∧ sep ≠ ' ' ∧ sep ≠ 'ー' ∧
    ¬ IsAlnum (some sep) ∧ sep ≠ '゛' ∧ sep ≠ '゜')
    (h2 : ∀ r ∈ neologdnLigatures, sep ∉ r.1) : CutsNeologdn sep := by
  obtain ⟨a1, a2, a3, a4, a5, a6, a7⟩ := h1
  refine ⟨a1, a2, a3, a4, a5, fun a => ⟨?_, voiced_none a6 a7⟩⟩
  cases hv : voiced sep a with
  | none => rfl
  | some b => exact absurd (by simp) (h2 _ (voiced_cases hv))

/-- C60: line ends, tabs, `。` and `、` are characters at which neologdn cuts a text; a letter, a
space, the prolonged sound mark or a kana that takes sound marks is not. -/
theorem C60_separators :
    (∀ sep ∈ c! "\n\r\t。、", CutsNeologdn sep) ∧
    (∀ sep ∈ c! "a0 ーカ゛~Ａ", ¬ CutsNeologdn sep) := by
  constructor
  · intro sep hs
    exact cutsNeologdn_of
      ((by decide +kernel : ∀ sep ∈ c! "\n\r\t。、", neologdnFold sep = sep ∧ sep ∉ tildeChars ∧
        sep ≠ ' ' ∧ sep ≠ 'ー' ∧ ¬ IsAlnum (some sep) ∧ sep ≠ '゛' ∧ sep ≠ '゜') sep hs)
      ((by decide +kernel : ∀ sep ∈ c! "\n\r\t。、", ∀ r ∈ neologdnLigatures, sep ∉ r.1) sep hs)
  · intro sep hs hc
    have h1 : ∀ sep ∈ c! "a0 ーカ゛~Ａ", ¬ (neologdnFold sep = sep ∧ sep ∉ tildeChars ∧ sep ≠ ' ' ∧
      sep ≠ 'ー' ∧ ¬ IsAlnum (some sep) ∧ voiced sep '゛' = none ∧ voiced 'カ' sep = none) := by
      decide +kernel
    exact h1 sep hs ⟨hc.1, hc.2.1, hc.2.2.1, hc.2.2.2.1, hc.2.2.2.2.1, (hc.2.2.2.2.2 _).1, (hc.2.2.2.2.2 _).2⟩

/-- C60 for `Chanoma::neologdn`: texts of several lines. -/
theorem C60_neologdn (σ : Oracle) (c : Chanoma) (hc : Chanoma.neologdn σ = .ok c)
    (σs : Nat → Oracle) (debug : Bool) (lines : List Str) (hne : lines ≠ []) :
    c.normalize σs debug (['\n'].intercalate lines) =
      .ok (['\n'].intercalate (lines.map neologdnSpec)) := by
  obtain ⟨c', h1, h2⟩ := C16_neologdn σ
  rw [h1] at hc; cases hc
  apply C60_line_by_line '\n' c (.neologdn h1) _ σs debug lines _ hne
  · rw [List.map_map]
    apply List.map_congr_left
    intro t _
    exact h2 σs debug t
  · intro m hm
    simp only [Chanoma.neologdn, bind_eq_ok] at h1
    obtain ⟨x, hx, hx2⟩ := h1
    cases hx2
    rw [List.mem_singleton.mp hm]
    exact ⟨C60_separators.1 _ (by decide), σ, hx⟩

/-- A pipeline of the remaining kinds of modifiers meets the hypothesis for line ends. -/
example : ∀ m ∈ [ModifierKind.characterConverter ⟨[('a', 'b')]⟩, .characterEliminator ⟨['~']⟩,
    .consecutiveCharacterReducer ⟨'ー'⟩, .dottedSpaceEliminator, .ligatureTranslator ⟨[(c! "㈱", c! "(株)")]⟩],
    LineSafe '\n' m := by
  intro m hm
  simp only [List.mem_cons, List.not_mem_nil, or_false] at hm
  rcases hm with rfl | rfl | rfl | rfl | rfl <;> simp only [LineSafe] <;> decide

/-- `trim` is not such a modifier: it does not trim every line. -/
theorem C60_not_trim (σ : Oracle) :
    ModifierKind.trim.modify σ (c! " a \n b ") = .ok (c! "a \n b") ∧
    ModifierKind.trim.modify σ (c! " a ") = .ok (c! "a") ∧
    ModifierKind.trim.modify σ (c! " b ") = .ok (c! "b") := by
  refine ⟨?_, ?_, ?_⟩ <;> simp only [ModifierKind.modify] <;> decide +kernel

end Chanoma
