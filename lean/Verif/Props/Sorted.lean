import Verif.Props.Anagram
/-! # C105: whether a sorted list of texts is sorted when it has been normalised

Texts are compared as Rust compares strings, character by character in the order of the code
points: this is `≤` on lists of characters. -/

namespace Chanoma

theorem lt_char {a b : Char} (h : a ≠ b) : a < b ∨ b < a := by
  rcases Nat.lt_or_gt_of_ne (fun e : a.toNat = b.toNat => h (Char.toNat_inj.1 e)) with h | h
  · exact .inl h
  · exact .inr h

theorem asymm_char {a b : Char} (h : a < b) : ¬ b < a := fun h' => by
  have h : a.toNat < b.toNat := h
  have h' : b.toNat < a.toNat := h'
  omega

theorem ne_of_lt_char {a b : Char} (h : a < b) : a ≠ b := fun e => by subst e; exact asymm_char h h

theorem clt {a b : Char} {s t : Str} (h : a < b) : a :: s < b :: t := List.cons_lt_cons_iff.2 (.inl h)

theorem clt2 {a b c : Char} {s t : Str} (h : a < b) : c :: a :: s < c :: b :: t :=
  List.cons_lt_cons_iff.2 (.inr ⟨rfl, clt h⟩)

/-- Texts in order become texts in order. -/
def KeepsOrder (F : Str → Str) : Prop := ∀ u v : Str, u ≤ v → F u ≤ F v

theorem KeepsOrder.lt {F : Str → Str} (h : KeepsOrder F) {u v : Str} (huv : u < v) : ¬ F v < F u := by
  have := h u v (List.le_of_lt huv)
  exact List.not_lt.2 this

theorem monotone_id {f : Char → Char} (h : ∀ a b, a < b → f a < f b) (a : Char) : f a = a := by
  have h1 : ∀ n, ∀ a : Char, a.toNat = n → ¬ f a < a := by
    intro n
    induction n using Nat.strongRecOn with
    | ind n ih =>
      rintro a rfl hlt
      exact ih (f a).toNat hlt (f a) rfl (h _ _ hlt)
  have h2 : ∀ n, ∀ a : Char, 0x110000 - a.toNat = n → ¬ a < f a := by
    intro n
    induction n using Nat.strongRecOn with
    | ind n ih =>
      rintro a rfl hlt
      have hlt' : a.toNat < (f a).toNat := hlt
      have hb : (f a).toNat < 0x110000 := by
        have := (f a).valid
        simp only [UInt32.isValidChar, Nat.isValidChar] at this
        show (f a).val.toNat < _
        omega
      exact ih (0x110000 - (f a).toNat) (by omega) (f a) rfl (h _ _ hlt)
  by_cases e : f a = a
  · exact e
  · rcases lt_char e with h | h
    · exact absurd h (h1 _ a rfl)
    · exact absurd h (h2 _ a rfl)

theorem map_keeps {f : Char → Char} : KeepsOrder (List.map f) ↔ ∀ t : Str, t.map f = t := by
  constructor
  · intro h
    have hmono : ∀ a b, a < b → f a < f b := by
      intro a b hab
      have h1 := h.lt (u := [a]) (v := [b]) (clt hab)
      have h2 := h.lt (u := [a, a]) (v := [b]) (clt hab)
      by_cases e : f a = f b
      · exact absurd (List.cons_lt_cons_iff.2 (.inr ⟨e.symm, List.nil_lt_cons _ _⟩)) h2
      · rcases lt_char e with h | h
        · exact h
        · exact absurd (clt h) h1
    intro t
    rw [show f = id from funext fun a => monotone_id hmono a, List.map_id]
  · intro h u v huv
    rw [h, h]; exact huv

theorem filter_keeps {p : Char → Bool} : KeepsOrder (List.filter p) ↔
    (∀ t : Str, t.filter p = t) ∨ ∀ t : Str, t.filter p = [] := by
  constructor
  · intro h
    by_cases h1 : ∀ c, p c = true
    · exact .inl fun t => List.filter_eq_self.2 fun c _ => h1 c
    · obtain ⟨s, hs⟩ := Classical.not_forall.1 h1
      right
      intro t
      rw [List.filter_eq_nil_iff]
      intro x _ hx
      have hne : s ≠ x := fun e => hs (e ▸ hx)
      rcases lt_char hne with hlt | hlt
      · refine h.lt (u := [s, x, x]) (v := [x]) (clt hlt) ?_
        simp [hs, hx]
      · refine h.lt (u := [x]) (v := [s]) (clt hlt) ?_
        simp [hs, hx]
  · rintro (h | h) u v huv
    · rw [h, h]; exact huv
    · rw [h, h]; exact List.le_refl _

/-- C105: a modifier of a configuration, other than a ligature translator, keeps texts in order only if it changes
no text, or deletes all of them. -/
theorem C105_modifiers (σ : Oracle) (k v : YValue) (s : Step) (hd : Describes k v s) (hl : ∀ r, s ≠ .ligature r) :
    ∃ m, ModifierKind.fromYaml σ k v = .ok m ∧
      ((∀ τ τ' (a b oa ob : Str), a ≤ b → m.modify τ a = .ok oa → m.modify τ' b = .ok ob → oa ≤ ob) ↔
        (∀ τ t, m.modify τ t = .ok t) ∨ ∀ τ t, m.modify τ t = .ok []) := by
  obtain ⟨m, h1, h2⟩ := describes_ok hd σ
  have hf := step_function hl h2.2
  refine ⟨m, h1, ?_⟩
  have key : (∀ τ τ' (a b oa ob : Str), a ≤ b → m.modify τ a = .ok oa → m.modify τ' b = .ok ob → oa ≤ ob) ↔
      KeepsOrder s.does := by
    constructor
    · exact fun h a b hab => h .insertion .insertion a b _ _ hab (hf _ a) (hf _ b)
    · intro h τ τ' a b oa ob hab ha hb
      rw [hf, Outcome.ok.injEq] at ha hb
      subst ha hb
      exact h a b hab
  have key2 : ((∀ τ t, m.modify τ t = .ok t) ∨ ∀ τ t, m.modify τ t = .ok []) ↔
      (∀ t, s.does t = t) ∨ ∀ t, s.does t = [] := by
    simp only [hf, Outcome.ok.injEq]
    exact or_congr ⟨fun h => h .insertion, fun h _ => h⟩ ⟨fun h => h .insertion, fun h _ => h⟩
  rw [key, key2]
  have never : ∀ {F : Str → Str} (u v : Str), u < v → F v < F u → (KeepsOrder F ↔ (∀ t, F t = t) ∨ ∀ t, F t = []) := by
    intro F u v huv hF
    refine ⟨fun h => absurd hF (h.lt huv), ?_⟩
    rintro (h | h)
    · rw [h, h] at hF
      exact absurd hF (List.not_lt.2 (List.le_of_lt huv))
    · rw [h, h] at hF
      cases hF
  cases s with
  | convert l =>
    refine (map_keeps (f := fun c => (lastPair l c).getD c)).trans ⟨.inl, ?_⟩
    rintro (h | h)
    · exact h
    · exact absurd (h ['a']) (by simp [Step.act])
  | eliminate cs => exact filter_keeps
  | reduce c =>
    by_cases hc : c = 'x'
    · subst hc
      exact never (c! "xxyz") (c! "xy") (by decide) (by decide)
    · rcases lt_char hc with h | h
      · refine never [c, c, 'x', 'x'] [c, 'x'] (clt2 h) ?_
        have hx : 'x' ≠ c := fun e => hc e.symm
        simp [Step.does, Step.act, squeeze, hx]
      · refine never [c, 'x', 'x'] [c, c, 'x'] (clt2 h) ?_
        have hx : 'x' ≠ c := fun e => hc e.symm
        simp [Step.does, Step.act, squeeze, hx]
  | spaces => exact never (c! " b") (c! "a") (by decide) (by decide)
  | trim => exact never (c! " b") (c! "a") (by decide) (by decide)
  | neologdn => exact never (c! "b") (c! "ａ") (by decide) (by decide +kernel)
  | ligature r => exact absurd rfl (hl r)

theorem flatMap_keeps (g : Char → Str) (hg : ∀ c, ∃ s, g c = c :: s) : KeepsOrder (List.flatMap g) := by
  intro u
  induction u with
  | nil => intro v _; exact List.nil_le _
  | cons a u ih =>
    intro v h
    cases v with
    | nil => exact absurd (List.nil_lt_cons _ _) h
    | cons b v =>
      rw [List.flatMap_cons, List.flatMap_cons]
      rcases List.cons_le_cons_iff.1 h with h | ⟨rfl, h'⟩
      · obtain ⟨s, hs⟩ := hg a
        obtain ⟨s', hs'⟩ := hg b
        rw [hs, hs']
        exact List.le_of_lt (clt h)
      · exact List.append_left_le (ih v h')

/-- The last of all code points. -/
def lastChar : Char := Char.ofNat 0x10FFFF

theorem le_lastChar (c : Char) (h : c ≠ lastChar) : c < lastChar := by
  rcases lt_char h with h | h
  · exact h
  · have h : 0x10FFFF < c.toNat := h
    have := c.valid
    simp only [UInt32.isValidChar, Nat.isValidChar] at this
    have e : c.toNat = c.val.toNat := rfl
    omega

theorem lt_replicate (s : Str) : s < List.replicate (s.length + 1) lastChar := by
  induction s with
  | nil => exact List.nil_lt_cons _ _
  | cons c s ih =>
    rw [List.length_cons, List.replicate_succ]
    by_cases h : c = lastChar
    · exact List.cons_lt_cons_iff.2 (.inr ⟨h, ih⟩)
    · exact clt (le_lastChar c h)

/-- C105: a rule that replaces one character, other than the last of all code points, keeps texts in order exactly if
what it puts there starts with this character; a rule with an empty key always does. -/
theorem C105_one_rule (σ : Oracle) (k v : Str) (hk : k.length ≤ 1) (hmax : k ≠ [lastChar]) :
    (∀ a b : Str, a ≤ b → LigatureTranslator.modify ⟨[(k, v)]⟩ σ a ≤ LigatureTranslator.modify ⟨[(k, v)]⟩ σ b) ↔
      k = [] ∨ v.head? = k.head? := by
  simp only [one_rule]
  match k, hk with
  | [], _ =>
    refine ⟨fun _ => .inl rfl, fun _ a b h => ?_⟩
    exact List.append_left_le (flatMap_keeps _ (fun c => ⟨v, rfl⟩) a b h)
  | [k], _ =>
    simp only [strReplace_char]
    have hkm : k ≠ lastChar := fun e => hmax (by rw [e])
    constructor
    · intro h
      have h : KeepsOrder (List.flatMap fun c => if c = k then v else [c]) := h
      right
      cases v with
      | nil =>
        refine absurd ?_ (h.lt (u := [k, lastChar, lastChar]) (v := [lastChar]) (clt (le_lastChar k hkm)))
        simp [hkm.symm]
      | cons t ts =>
        simp only [List.head?_cons, Option.some.injEq]
        by_cases e : t = k
        · exact e
        · rcases lt_char e with hlt | hlt
          · refine absurd ?_ (h.lt (u := t :: List.replicate (ts.length + 1) lastChar) (v := [k]) (clt hlt))
            have : (List.replicate (ts.length + 1) lastChar).flatMap (fun c => if c = k then t :: ts else [c]) =
                List.replicate (ts.length + 1) lastChar := by
              generalize ts.length + 1 = n
              induction n with
              | zero => rfl
              | succ n ih => simp [List.replicate_succ, hkm.symm, ih]
            show _ < (if t = k then t :: ts else [t]) ++
              (List.replicate (ts.length + 1) lastChar).flatMap (fun c => if c = k then t :: ts else [c])
            rw [this]
            simp only [e, if_false, List.flatMap_cons, List.flatMap_nil, if_true, List.append_nil, List.singleton_append]
            exact List.cons_lt_cons_iff.2 (.inr ⟨rfl, lt_replicate ts⟩)
          · refine absurd ?_ (h.lt (u := [k, k]) (v := [t]) (clt hlt))
            simp only [e, if_false, List.flatMap_cons, List.flatMap_nil, if_true, List.append_nil, List.cons_append]
            refine List.cons_lt_cons_iff.2 (.inr ⟨rfl, ?_⟩)
            cases ts <;> exact List.nil_lt_cons _ _
    · rintro (h | h)
      · cases h
      · intro a b hab
        cases v with
        | nil => cases h
        | cons t ts =>
          cases h
          refine flatMap_keeps _ (fun c => ?_) a b hab
          by_cases e : c = k
          · exact ⟨ts, by simp [e]⟩
          · exact ⟨[], by simp [e]⟩

/-- C105: no sequence of presets and neologdns keeps texts in order, but for the empty one: `b` comes before `ａ`, and
after `a`. -/
theorem C105_presets (c : Chanoma) (calls : List Call) (hc : calls.foldlM Call.run Chanoma.new = .ok c)
    (ht : ∀ t, Call.addTable t ∉ calls) (σs : Nat → Oracle) :
    (∀ a b oa ob : Str, a ≤ b → c.normalize σs false a = .ok oa → c.normalize σs false b = .ok ob → oa ≤ ob) ↔
      calls = [] := by
  have hn := fun t => (C22_from_new calls c hc σs t).1
  constructor
  · intro h
    cases calls with
    | nil => rfl
    | cons x calls =>
      have hb : ∀ (l : List Call) (ch : Char), ch = 'a' ∨ ch = 'b' → (∀ t, Call.addTable t ∉ l) →
          l.foldl Call.meaning [ch] = [ch] := by
        intro l
        induction l with
        | nil => intros; rfl
        | cons y l ih =>
          intro ch hch hl
          rw [List.foldl_cons]
          have : Call.meaning [ch] y = [ch] := by
            cases y with
            | addTable t => exact absurd (List.mem_cons_self) (hl t)
            | usePreset _ => rcases hch with rfl | rfl <;> (show List.map presetFold _ = _; decide +kernel)
            | useNeologdn _ => rcases hch with rfl | rfl <;> (show neologdnSpec _ = _; decide +kernel)
          rw [this]
          exact ih ch hch fun t ht => hl t (List.mem_cons_of_mem _ ht)
      have hx : Call.meaning (c! "ａ") x = c! "a" := by
        cases x with
        | addTable t => exact absurd (List.mem_cons_self) (ht t)
        | usePreset _ => show List.map presetFold _ = _; decide +kernel
        | useNeologdn _ => show neologdnSpec _ = _; decide +kernel
      have h1 := hn (c! "ａ")
      rw [List.foldl_cons, hx] at h1
      have h2 := hn (c! "b")
      rw [show c! "a" = ['a'] from rfl, hb calls 'a' (.inl rfl) fun t h => ht t (List.mem_cons_of_mem _ h)] at h1
      rw [show c! "b" = ['b'] from rfl, hb (x :: calls) 'b' (.inr rfl) ht] at h2
      exact absurd (h (c! "b") (c! "ａ") _ _ (by decide) h2 h1) (by decide)
  · rintro rfl a b oa ob hab ha hb
    rw [hn, Outcome.ok.injEq] at ha hb
    subst ha hb
    exact hab

/- Entries that the first theorem speaks of, with texts in order that do not stay so. -/
example : Describes (.string (c! "character_eliminator")) (.sequence [.string (c! "a")]) (.eliminate ['a']) :=
  .eliminate [('a', [])]
example : c! "ab" ≤ c! "b" ∧ c! "abb" ≤ c! "b" ∧ ¬ (c! "abb").filter (· ∉ ['a']) ≤ (c! "b").filter (· ∉ ['a']) := by decide
example : Describes (.string (c! "trim")) .null .trim := .trim
example : c! " b" ≤ c! "a" ∧ ¬ Step.trim.act (c! " b") ≤ Step.trim.act (c! "a") := by decide

/- A rule that keeps texts in order, and one that does not. -/
example : (c! "ー").length ≤ 1 ∧ c! "ー" ≠ [lastChar] ∧ (c! "ー~").head? = (c! "ー").head? := by decide
example : (c! "~").length ≤ 1 ∧ c! "~" ≠ [lastChar] ∧ ¬ (c! "ー").head? = (c! "~").head? ∧ c! "~" ≠ [] := by decide
example : c! "~~" ≤ c! "ー" ∧ ¬ strReplace (c! "~") (c! "ー") (c! "~~") ≤ strReplace (c! "~") (c! "ー") (c! "ー") := by
  decide

/- A sequence of calls. -/
example : ∃ c, [Call.usePreset .insertion, Call.useNeologdn .insertion].foldlM Call.run Chanoma.new = .ok c :=
  (C22_call_order Chanoma.new _).1.2 (by simp [Call.Accepted])

end Chanoma
