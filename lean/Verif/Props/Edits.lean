import Verif.Props.Local
import Verif.Props.OneFile
import Verif.Props.Kinds
import Verif.Spec.Edits
/-! # C106: how many changes the results are apart -/

namespace Chanoma

theorem Within.trans {n m : Nat} {x y z : Str} (h1 : Within n x y) (h2 : Within m y z) : Within (n + m) x z := by
  induction h1 with
  | same n x =>
    have mono : ∀ {m : Nat} {x z : Str}, Within m x z → Within (m + n) x z := by
      intro m x z h
      induction h with
      | same m x => exact .same _ _
      | edit h _ ih => rw [Nat.add_right_comm]; exact .edit h ih
    rw [Nat.add_comm]
    exact mono h2
  | edit h _ ih => rw [Nat.add_right_comm]; exact .edit h (ih h2)

theorem Within.mono {n m : Nat} {x y : Str} (h : Within n x y) (hm : n ≤ m) : Within m x y := by
  have := h.trans (.same (m - n) y)
  rwa [Nat.add_sub_cancel' hm] at this

theorem Edit.around {x y : Str} (h : Edit x y) (u w : Str) : Edit (u ++ x ++ w) (u ++ y ++ w) := by
  cases h with
  | insert p c s =>
    have := Edit.insert (u ++ p) c (s ++ w)
    simpa using this
  | delete p c s =>
    have := Edit.delete (u ++ p) c (s ++ w)
    simpa using this
  | change p c d s =>
    have := Edit.change (u ++ p) c d (s ++ w)
    simpa using this

theorem Within.around {n : Nat} {x y : Str} (h : Within n x y) (u w : Str) : Within n (u ++ x ++ w) (u ++ y ++ w) := by
  induction h with
  | same n x => exact .same _ _
  | edit h _ ih => exact .edit (h.around u w) ih

theorem within_any {n : Nat} : ∀ {a b : Str}, a.length ≤ n → b.length ≤ n → Within n a b := by
  induction n with
  | zero =>
    intro a b ha hb
    rw [List.length_eq_zero_iff.1 (Nat.le_zero.1 ha), List.length_eq_zero_iff.1 (Nat.le_zero.1 hb)]
    exact .same _ _
  | succ n ih =>
    intro a b ha hb
    cases a with
    | nil => cases b with
      | nil => exact .same _ _
      | cons d b =>
        refine .edit (.insert [] d []) ?_
        have := (ih (a := []) (b := b) (by simp) (by simpa using hb)).around [d] []
        simpa using this
    | cons c a => cases b with
      | nil => exact .edit (.delete [] c a) (ih (by simpa using ha) (by simp))
      | cons d b =>
        refine .edit (.change [] c d a) ?_
        have := (ih (a := a) (b := b) (by simpa using ha) (by simpa using hb)).around [d] []
        simpa using this

theorem Near.within {n : Nat} {x y : Str} (h : Near n x y) : Within n x y := by
  obtain ⟨p, a, b, s, rfl, rfl, ha, hb⟩ := h
  exact (within_any ha hb).around p s

theorem Edit.near {x y : Str} (h : Edit x y) : Near 1 x y := by
  cases h with
  | insert p c s => exact ⟨p, [], [c], s, by simp, by simp, by simp, by simp⟩
  | delete p c s => exact ⟨p, [c], [], s, by simp, by simp, by simp, by simp⟩
  | change p c d s => exact ⟨p, [c], [d], s, by simp, by simp, by simp, by simp⟩

/-- Whatever moves results apart by at most `d` at one place, for one edit, multiplies the number of edits by `d`. -/
theorem within_mul {F : Str → Str} {d : Nat} (h : ∀ x y, Near 1 x y → Near d (F x) (F y)) {n : Nat} {x y : Str}
    (hn : Within n x y) : Within (n * d) (F x) (F y) := by
  induction hn with
  | same n x => exact .same _ _
  | edit he _ ih =>
    rw [Nat.succ_mul, Nat.add_comm]
    exact (h _ _ he.near).within.trans ih

/-- C106: `n` edits of a text come to at most `n` edits of the result of a converter or an eliminator, `2n` for a
reducer and `3n` for the dotted-space rule and neologdn. -/
theorem C106_modifiers (σ : Oracle) (k v : YValue) (s : Step) (hd : Describes k v s) (d : Nat)
    (hs : (∃ l, s = .convert l) ∧ d = 1 ∨ (∃ l, s = .eliminate l) ∧ d = 1 ∨ (∃ c, s = .reduce c) ∧ d = 2 ∨
      (s = .spaces ∨ s = .neologdn) ∧ d = 3) :
    ∃ m, ModifierKind.fromYaml σ k v = .ok m ∧ ∀ τ τ' n x y ox oy, Within n x y → m.modify τ x = .ok ox →
      m.modify τ' y = .ok oy → Within (n * d) ox oy := by
  obtain ⟨m, h1, h2⟩ := describes_ok hd σ
  have hl : ∀ r, s ≠ .ligature r := by
    rintro r rfl
    rcases hs with ⟨⟨_, h⟩, -⟩ | ⟨⟨_, h⟩, -⟩ | ⟨⟨_, h⟩, -⟩ | ⟨h | h, -⟩ <;> cases h
  have hf := step_function hl h2.2
  have hnear : ∀ x y, Near 1 x y → Near d (s.does x) (s.does y) := by
    intro x y hn
    obtain ⟨e, he, hs'⟩ : ∃ e, 1 + e = d ∧ ((∃ l, s = .convert l) ∧ e = 0 ∨ (∃ l, s = .eliminate l) ∧ e = 0 ∨
        (∃ c, s = .reduce c) ∧ e = 1 ∨ (s = .spaces ∨ s = .neologdn) ∧ e = 2) := by
      rcases hs with ⟨h, rfl⟩ | ⟨h, rfl⟩ | ⟨h, rfl⟩ | ⟨h, rfl⟩
      · exact ⟨0, rfl, .inl ⟨h, rfl⟩⟩
      · exact ⟨0, rfl, .inr (.inl ⟨h, rfl⟩)⟩
      · exact ⟨1, rfl, .inr (.inr (.inl ⟨h, rfl⟩))⟩
      · exact ⟨2, rfl, .inr (.inr (.inr ⟨h, rfl⟩))⟩
    obtain ⟨m', h3, h4⟩ := C93_step σ k v s hd e hs'
    rw [h1] at h3
    cases h3
    obtain ⟨ox, oy, h5, h6, h7⟩ := h4 σ 1 x y hn
    have h5 := (hf σ x).symm.trans h5
    have h6 := (hf σ y).symm.trans h6
    cases h5
    cases h6
    rw [← he]
    exact h7
  refine ⟨m, h1, fun τ τ' n x y ox oy hn hx hy => ?_⟩
  have hx := (hf τ x).symm.trans hx
  have hy := (hf τ' y).symm.trans hy
  cases hx
  cases hy
  exact within_mul hnear hn

/-- C106: in a pipeline of `k` modifiers, without `trim` and ligature translators, `n` edits of the text come to at
most `n (2k + 1)` edits of the result; `n` edits to `n` if there are converters and eliminators only. -/
theorem C106_pipeline {c : Chanoma} (hc : ApiBuilt c) (ht : .trim ∉ c.modifiers)
    (hl : ∀ x, .ligatureTranslator x ∉ c.modifiers) (σs : Nat → Oracle) (debug : Bool) (n : Nat) (text text' out out' : Str)
    (hn : Within n text text') (h1 : c.normalize σs debug text = .ok out) (h2 : c.normalize σs debug text' = .ok out') :
    Within (n * (2 * c.modifiers.length + 1)) out out' ∧
    ((∀ m ∈ c.modifiers, m.CharByChar) → Within n out out') := by
  have hw := apiBuilt_wf hc
  have hF : ∀ t, ∃ o, c.normalize σs false t = .ok o := by
    intro t
    obtain ⟨rs, -, -, h⟩ := pipeline_eq c hw σs t
    exact ⟨_, h⟩
  have q1 : c.normalize σs false text = .ok out := by
    simp only [Chanoma.normalize, Bool.not_false, if_true]; exact normalize_quiet hw h1
  have q2 : c.normalize σs false text' = .ok out' := by
    simp only [Chanoma.normalize, Bool.not_false, if_true]; exact normalize_quiet hw h2
  constructor
  · have key := within_mul (F := fun t => (hF t).choose) (d := 2 * c.modifiers.length + 1) (fun x y h => by
      have := C93_pipeline hc ht hl σs false 1 x y _ _ h (hF x).choose_spec (hF y).choose_spec
      rwa [Nat.add_comm] at this) hn
    have e1 : (hF text).choose = out := Outcome.ok.inj ((hF text).choose_spec.symm.trans q1)
    have e2 : (hF text').choose = out' := Outcome.ok.inj ((hF text').choose_spec.symm.trans q2)
    simp only [e1, e2] at key
    exact key
  · intro hcc
    obtain ⟨f, hf⟩ := charByChar_normalize hcc
    have e1 := (hf σs text).symm.trans q1
    have e2 := (hf σs text').symm.trans q2
    cases e1
    cases e2
    have key := within_mul (F := fun t => t.filterMap f) (d := 1) (fun x y h => by
      obtain ⟨p, a, b, s, rfl, rfl, ha, hb⟩ := h
      exact ⟨p.filterMap f, a.filterMap f, b.filterMap f, s.filterMap f, by simp, by simp,
        Nat.le_trans (List.length_filterMap_le f a) ha, Nat.le_trans (List.length_filterMap_le f b) hb⟩) hn
    rwa [Nat.mul_one] at key

/-- C106: with ligature translators there is a factor that depends on the pipeline only, if for every rule it does not
matter which one of two overlapping occurrences of its key is replaced. -/
theorem C106_ligatures {c : Chanoma} (hc : ApiBuilt c) (ht : .trim ∉ c.modifiers)
    (hl : ∀ x, .ligatureTranslator x ∈ c.modifiers → ∀ r ∈ x.map, OverlapsAgree r.1 r.2) :
    ∃ d, ∀ (σs : Nat → Oracle) (debug : Bool) (n : Nat) (text text' out out' : Str), Within n text text' →
      c.normalize σs debug text = .ok out → c.normalize σs debug text' = .ok out' → Within (n * d) out out' := by
  have hw := apiBuilt_wf hc
  obtain ⟨g, hg⟩ := C93_ligatures hc ht hl
  refine ⟨g 1, fun σs debug n text text' out out' hn h1 h2 => ?_⟩
  have hF : ∀ t, ∃ o, c.normalize σs false t = .ok o := by
    intro t
    obtain ⟨rs, -, -, h⟩ := pipeline_eq c hw σs t
    exact ⟨_, h⟩
  have q1 : c.normalize σs false text = .ok out := by
    simp only [Chanoma.normalize, Bool.not_false, if_true]; exact normalize_quiet hw h1
  have q2 : c.normalize σs false text' = .ok out' := by
    simp only [Chanoma.normalize, Bool.not_false, if_true]; exact normalize_quiet hw h2
  have key := within_mul (F := fun t => (hF t).choose) (d := g 1) (fun x y h =>
    hg σs false 1 x y _ _ h (hF x).choose_spec (hF y).choose_spec) hn
  have e1 : (hF text).choose = out := Outcome.ok.inj ((hF text).choose_spec.symm.trans q1)
  have e2 : (hF text').choose = out' := Outcome.ok.inj ((hF text').choose_spec.symm.trans q2)
  simp only [e1, e2] at key
  exact key

/-- An edit changes the number of characters of a kind by one at most. -/
theorem Within.count {n : Nat} {x y : Str} (h : Within n x y) (p : Char → Bool) : x.countP p ≤ y.countP p + n := by
  induction h with
  | same n x => omega
  | edit he _ ih =>
    refine Nat.le_trans (?_ : _ ≤ _ + 1) (Nat.le_trans (Nat.add_le_add_right ih 1) (by omega))
    cases he with
    | insert q c s => simp only [List.countP_append, List.countP_cons]; split <;> omega
    | delete q c s => simp only [List.countP_append, List.countP_cons]; split <;> omega
    | change q c d s => simp only [List.countP_append, List.countP_cons]; split <;> split <;> omega

/-- `n` times the text. -/
def times (n : Nat) (w : Str) : Str := (List.replicate n w).flatten

theorem times_succ (n : Nat) (w : Str) : times (n + 1) w = w ++ times n w := by
  simp [times, List.replicate_succ]

theorem within_times {w w' : Str} (h : Within 1 w w') (n : Nat) (p : Str) : Within n (p ++ times n w) (p ++ times n w') := by
  induction n generalizing p with
  | zero => exact .same _ _
  | succ n ih =>
    rw [times_succ, times_succ, ← List.append_assoc, ← List.append_assoc]
    have := (h.around p (times n w)).trans (ih (p ++ w'))
    rwa [Nat.add_comm] at this

theorem dotted_times (n : Nat) : dottedModify ('1' :: times n (c! " 1 1")) = '1' :: times n (c! " 1 1") := by
  have key : dGo true false (times n (c! " 1 1")) = times n (c! " 1 1") := by
    induction n with
    | zero => rfl
    | succ n ih =>
      rw [times_succ]
      show dGo true false (' ' :: '1' :: ' ' :: '1' :: times n (c! " 1 1")) = _
      simp [dGo, show isAsciiAlphanumeric '1' = true from rfl, ih]
  rw [dotted_eq_dGo]
  simp [dGo, show isAsciiAlphanumeric '1' = true from rfl, key]

theorem dotted_times_kana (n : Nat) : dottedModify ('1' :: times n (c! " あ 1")) = '1' :: times n (c! "あ1") := by
  have key : dGo true false (times n (c! " あ 1")) = times n (c! "あ1") := by
    induction n with
    | zero => rfl
    | succ n ih =>
      rw [times_succ, times_succ]
      show dGo true false (' ' :: 'あ' :: ' ' :: '1' :: times n (c! " あ 1")) = _
      simp [dGo, show isAsciiAlphanumeric '1' = true from rfl, show isAsciiAlphanumeric 'あ' = false from rfl, ih]
  rw [dotted_eq_dGo]
  simp [dGo, show isAsciiAlphanumeric '1' = true from rfl, key]

theorem countP_times (p : Char → Bool) (n : Nat) (w : Str) : (times n w).countP p = n * w.countP p := by
  induction n with
  | zero => simp [times]
  | succ n ih => rw [times_succ, List.countP_append, ih, Nat.succ_mul, Nat.add_comm]

theorem mem_times {n : Nat} {w : Str} {c : Char} (h : c ∈ times n w) : c ∈ w := by
  simp only [times, List.mem_flatten, List.mem_replicate] at h
  obtain ⟨l, ⟨-, rfl⟩, h⟩ := h
  exact h

theorem far_times {n m : Nat} (h : Within m ('1' :: times n (c! " 1 1")) ('1' :: times n (c! "あ1"))) : n * 3 ≤ m := by
  have := h.count (fun c => c ≠ 'あ')
  rw [List.countP_cons, List.countP_cons, countP_times, countP_times,
    show List.countP (fun c => decide (c ≠ 'あ')) (c! " 1 1") = 4 by decide,
    show List.countP (fun c => decide (c ≠ 'あ')) (c! "あ1") = 1 by decide] at this
  omega

/-- C106: these numbers cannot be made smaller: for every `n` there are texts that `n` edits turn into each other, and
whose results no fewer edits do. -/
theorem C106_sharp (σ : Oracle) (n : Nat) :
    (∃ x y, Within n x y ∧ ∀ m, Within m ((CharacterEliminator.mk ['x']).modify x) ((CharacterEliminator.mk ['x']).modify y) → n ≤ m) ∧
    (∃ x y, Within n x y ∧ ∀ m, Within m ((ConsecutiveCharacterReducer.mk 'x').modify x)
      ((ConsecutiveCharacterReducer.mk 'x').modify y) → n * 2 ≤ m) ∧
    (∃ x y, Within n x y ∧ ∀ m, Within m (dottedModify x) (dottedModify y) → n * 3 ≤ m) ∧
    ∃ c, Chanoma.neologdn σ = .ok c ∧ ∃ x y, Within n x y ∧ ∀ σs debug m o o', c.normalize σs debug x = .ok o →
      c.normalize σs debug y = .ok o' → Within m o o' → n * 3 ≤ m := by
  have w1 : Within 1 (c! " 1 1") (c! " あ 1") := .edit (.change (c! " ") '1' 'あ' (c! " 1")) (.same 0 _)
  refine ⟨⟨times n ['y'], times n [], within_times (.edit (.delete [] 'y' []) (.same 0 _)) n [], fun m h => ?_⟩,
    ⟨'x' :: times n (c! "yx"), 'x' :: times n (c! "x"), within_times (.edit (.delete [] 'y' ['x']) (.same 0 _)) n ['x'],
      fun m h => ?_⟩, ⟨_, _, within_times w1 n ['1'], fun m h => ?_⟩, ?_⟩
  · rw [eliminator_eq, eliminator_eq] at h
    have := h.count (fun _ => true)
    have e : ∀ w : Str, (∀ c ∈ w, c = 'y') → (times n w).filter (· ∉ ['x']) = times n w := by
      intro w hw
      refine List.filter_eq_self.2 fun c hc => ?_
      rw [hw c (mem_times hc)]; rfl
    rw [e ['y'] (by simp), e [] (by simp), countP_times, countP_times] at this
    simp at this
    exact this
  · rw [reducer_eq, reducer_eq] at h
    have e1 : squeeze 'x' ('x' :: times n (c! "yx")) = 'x' :: times n (c! "yx") := by
      clear h
      induction n with
      | zero => rfl
      | succ n ih =>
        rw [times_succ]
        show squeeze 'x' ('x' :: 'y' :: 'x' :: times n (c! "yx")) = _
        rw [squeeze, if_neg (by simp), squeeze, if_neg (by simp), ih]
        rfl
    have e2 : squeeze 'x' ('x' :: times n (c! "x")) = ['x'] := by
      clear h e1
      induction n with
      | zero => rfl
      | succ n ih =>
        rw [times_succ]
        show squeeze 'x' ('x' :: 'x' :: times n (c! "x")) = _
        rw [squeeze, if_pos (by simp), ih]
    have := h.count (fun _ => true)
    rw [e1, e2] at this
    simp only [List.countP_cons, countP_times] at this
    simp at this
    omega
  · rw [List.singleton_append, List.singleton_append, dotted_times, dotted_times_kana] at h
    exact far_times h
  · obtain ⟨c, h, hn⟩ := C16_neologdn σ
    refine ⟨c, h, _, _, within_times w1 n ['1'], fun σs debug m o o' h1 h2 h3 => ?_⟩
    have h1 := (hn _ _ _).symm.trans h1
    have h2 := (hn _ _ _).symm.trans h2
    cases h1
    cases h2
    rw [List.singleton_append, List.singleton_append, spec_dotted, spec_dotted, dotted_times, dotted_times_kana] at h3
    · exact far_times h3
    · intro c hc
      rcases List.mem_cons.1 hc with rfl | hc
      · decide
      · have := mem_times hc; simp at this ⊢; rcases this with h | h | h | h <;> simp [h]
    · intro c hc
      rcases List.mem_cons.1 hc with rfl | hc
      · decide
      · have := mem_times hc; simp at this ⊢; rcases this with h | h | h | h <;> simp [h]

/-- C106: with `trim` one edit can come to any number of them. -/
theorem C106_trim (m : Nat) : ∃ x y, Within 1 x y ∧ ¬ Within m (trimModify x) (trimModify y) := by
  refine ⟨'a' :: List.replicate (m + 1) ' ' ++ ['a'], 'a' :: List.replicate (m + 1) ' ', ?_, fun h => ?_⟩
  · have := Edit.delete ('a' :: List.replicate (m + 1) ' ') 'a' []
    rw [List.append_nil] at this
    exact .edit this (.same 0 _)
  have h1 : trimModify ('a' :: List.replicate (m + 1) ' ') = ['a'] := by
    obtain ⟨i, j, h, h1, h2⟩ := trim_eq ('a' :: List.replicate (m + 1) ' ')
    exact trim_unique (a := i) (b := j) (a' := 0) (b' := m + 1) (h.symm.trans (by simp)) h1 h2 (by simp) (by simp)
  have h2 : trimModify ('a' :: List.replicate (m + 1) ' ' ++ ['a']) = 'a' :: List.replicate (m + 1) ' ' ++ ['a'] := by
    obtain ⟨i, j, h, h1, h2⟩ := trim_eq ('a' :: List.replicate (m + 1) ' ' ++ ['a'])
    refine trim_unique (a := i) (b := j) (a' := 0) (b' := 0) (h.symm.trans (by simp)) h1 h2 (by simp) ?_
    rw [List.getLast?_append]; simp
  have := h.count (fun _ => true)
  rw [h1, h2] at this
  simp at this
  omega

/- The hypotheses are met by these, and the numbers are attained: one edit, two and three. -/
example : Describes (.string (c! "dotted_space_eliminator")) .null .spaces := .spaces
example : Within 1 (c! "aa") (c! "axa") := .edit (.insert ['a'] 'x' ['a']) (.same 0 _)
example : squeeze 'a' (c! "aa") = c! "a" ∧ squeeze 'a' (c! "axa") = c! "axa" := by decide
example : spaceRule (c! "1 1 1") = c! "1 1 1" ∧ spaceRule (c! "1 あ 1") = c! "1あ1" := by decide +kernel
example : ∃ c, ApiBuilt c ∧ .trim ∉ c.modifiers ∧ (∀ x, .ligatureTranslator x ∉ c.modifiers) ∧
    c.modifiers.length = 2 ∧ ∀ m ∈ c.modifiers, m.CharByChar := by
  refine ⟨⟨[.characterEliminator ⟨['あ']⟩, .characterConverter ⟨[]⟩]⟩, ?_, by simp, by simp, rfl,
    by simp [ModifierKind.CharByChar]⟩
  exact .fromConfigFile (σ := .insertion) (path := p! "/c.yaml")
    (w := .ofFiles [(p! "/c.yaml", .text [])] (fun _ => some (.mapping [(.string (c! "modifiers"),
      .mapping [(.string (c! "character_eliminator"), .sequence [.string (c! "あ")])])]))) rfl

end Chanoma
