import Verif.Props.CommandLine
import Verif.Props.Output
import Verif.Model.OutputLine
import Verif.Spec.OutputLine
/-! # C84: the command line of the `output` program -/

namespace Chanoma

theorem outValue_strBytes {v : Str} (h : PlainWord v) : outValue (strBytes v) = some v := by
  unfold outValue
  split
  · rename_i b bs hb
    obtain ⟨t, rfl, ht⟩ := hyphen_head hb
    rcases h with h | h
    · cases h
      simp [strBytes] at ht
    · exact absurd rfl (h t)
  · exact strFromUtf8_strBytes v

theorem outValue_inv {a : OsStr} {v : Str} (h : outValue a = some v) :
    a = strBytes v ∧ PlainWord v := by
  unfold outValue at h
  split at h
  · cases h
  · rename_i hne
    have ha := ((strFromUtf8_eq_some_iff _ _).1 h).symm
    refine ⟨ha, ?_⟩
    cases v with
    | nil => right; intro t ht; cases ht
    | cons c t =>
      by_cases hc : c = '-'
      · subst hc
        left
        cases t with
        | nil => rfl
        | cons d t =>
          exfalso
          rw [strBytes_hyphen] at ha
          cases hs : strBytes (d :: t) with
          | nil =>
            rw [strBytes_cons] at hs
            have := String.utf8EncodeChar_ne_nil (c := d)
            simp_all
          | cons b bs => exact hne b bs (by rw [ha, hs])
      · right
        intro u hu
        cases hu
        exact hc rfl

theorem equals_head {s : Str} {r : List UInt8} (h : strBytes s = 0x3D :: r) :
    ∃ t, s = '=' :: t ∧ r = strBytes t := by
  cases s with
  | nil => simp [strBytes] at h
  | cons c t =>
    rw [strBytes_cons] at h
    have h1 := utf8Head_encode c (strBytes t)
    rw [h] at h1
    have h2 : utf8Head (0x3D :: r) = some ('=', r) := by
      have : utf8SeqLen 0x3D = 1 := by decide +kernel
      have h3 : String.utf8EncodeChar '=' = [0x3D] := by decide +kernel
      have h4 : Char.ofNat (utf8Number [0x3D]) = '=' := by decide +kernel
      simp [utf8Head, this, h3, h4]
    rw [h2] at h1
    simp only [Option.some.injEq, Prod.mk.injEq] at h1
    exact ⟨t, by rw [← h1.1], h1.2⟩

theorem outAttached_eq (v : Str) : outAttached (0x3D :: strBytes v) = some v :=
  strFromUtf8_strBytes v

theorem outAttached_strBytes {v : Str} (h : v.head? ≠ some '=') : outAttached (strBytes v) = some v := by
  unfold outAttached
  split
  · rename_i b hb
    obtain ⟨t, rfl, ht⟩ := equals_head hb
    exact absurd rfl h
  · exact strFromUtf8_strBytes v

theorem outAttached_inv {a : OsStr} {v : Str} (h : outAttached a = some v) :
    a = 0x3D :: strBytes v ∨ a = strBytes v ∧ v.head? ≠ some '=' := by
  unfold outAttached at h
  split at h
  · exact .inl (by rw [(strFromUtf8_eq_some_iff _ _).1 h])
  · rename_i hne
    have ha := ((strFromUtf8_eq_some_iff _ _).1 h).symm
    refine .inr ⟨ha, fun hv => ?_⟩
    cases v with
    | nil => cases hv
    | cons c t =>
      cases hv
      rw [strBytes_cons, show String.utf8EncodeChar '=' = [0x3D] by decide +kernel] at ha
      exact hne _ ha

theorem outGo_cons (a : OsStr) (as : List OsStr) (vs : List Str) : outGo false (a :: as) vs =
    if a = p! "--" then outGo true as vs
    else if a = p! "--format" ∨ a = p! "-f" then
      match as with
      | [] => none
      | v :: as => do
        let v ← outValue v
        outGo false as (vs ++ [v])
    else if (p! "--format=").isPrefixOf a then do
      let v ← outAttached (a.drop 8)
      outGo false as (vs ++ [v])
    else if (p! "-f").isPrefixOf a then do
      let v ← outAttached (a.drop 2)
      outGo false as (vs ++ [v])
    else none := by
  cases as <;> rfl

theorem outGo_nil (b : Bool) (vs : List Str) : outGo b [] vs = some vs := by
  cases b <;> rfl

/-- One occurrence of the option. -/
def FormatWords (line : List OsStr) (v : Str) : Prop := GivesFormat line v ∧ line ≠ []

theorem outGo_words {line : List OsStr} {v : Str} (h : FormatWords line v) (rest : List OsStr)
    (vs : List Str) : outGo false (line ++ rest) vs = outGo false rest (vs ++ [v]) := by
  obtain ⟨h, hne⟩ := h
  cases h with
  | nothing => exact absurd rfl hne
  | long hv =>
    show outGo false (p! "--format" :: strBytes v :: rest) vs = _
    rw [outGo_cons, if_neg (by decide), if_pos (by decide)]
    simp only [outValue_strBytes hv]
    rfl
  | short hv =>
    show outGo false (p! "-f" :: strBytes v :: rest) vs = _
    rw [outGo_cons, if_neg (by decide), if_pos (by decide)]
    simp only [outValue_strBytes hv]
    rfl
  | longEq =>
    show outGo false ((p! "--format=" ++ strBytes v) :: rest) vs = _
    rw [outGo_cons, if_neg (by simp), if_neg (by simp), if_pos (by simp)]
    simp [outAttached_eq]
  | shortEq =>
    show outGo false ((p! "-f=" ++ strBytes v) :: rest) vs = _
    rw [outGo_cons, if_neg (by simp), if_neg (by simp), if_neg (by simp), if_pos (by simp)]
    simp [outAttached_eq]
  | attached h1 h2 =>
    show outGo false ((p! "-f" ++ strBytes v) :: rest) vs = _
    have hb : strBytes v ≠ [] := by
      cases v with
      | nil => exact absurd rfl h1
      | cons c t =>
        rw [strBytes_cons]
        have := String.utf8EncodeChar_ne_nil (c := c)
        simp_all
    rw [outGo_cons, if_neg (by simp), if_neg (by simp [hb]), if_neg (by simp), if_pos (by simp)]
    simp [outAttached_strBytes h2]

theorem outGo_step {args : List OsStr} {vs ws : List Str} (h : outGo false args vs = some ws) :
    (args = [] ∨ args = [p! "--"]) ∧ ws = vs ∨
    ∃ line v rest, FormatWords line v ∧ args = line ++ rest ∧
      outGo false rest (vs ++ [v]) = some ws := by
  cases args with
  | nil => left; rw [outGo_nil] at h; exact ⟨.inl rfl, by simpa using h.symm⟩
  | cons a as =>
    rw [outGo_cons] at h
    split at h
    · rename_i ha
      left
      cases as with
      | nil => rw [outGo_nil] at h; exact ⟨.inr (by rw [ha]), by simpa using h.symm⟩
      | cons b bs => cases h
    · right
      split at h
      · rename_i ha
        cases as with
        | nil => cases h
        | cons b bs =>
          simp only [Option.bind_eq_bind, Option.bind_eq_some_iff] at h
          obtain ⟨v, h1, h2⟩ := h
          obtain ⟨rfl, hp⟩ := outValue_inv h1
          refine ⟨[a, strBytes v], v, bs, ⟨?_, by simp⟩, rfl, h2⟩
          rcases ha with rfl | rfl
          · exact .long hp
          · exact .short hp
      · rename_i hn
        split at h
        · rename_i hpre
          simp only [Option.bind_eq_bind, Option.bind_eq_some_iff] at h
          obtain ⟨v, h1, h2⟩ := h
          obtain ⟨x, rfl⟩ := List.isPrefixOf_iff_prefix.mp hpre
          refine ⟨[p! "--format=" ++ x], v, as, ⟨?_, by simp⟩, rfl, h2⟩
          have hx : strFromUtf8 x = some v := h1
          rw [← (strFromUtf8_eq_some_iff _ _).1 hx]
          exact .longEq v
        · split at h
          · rename_i hpre
            simp only [Option.bind_eq_bind, Option.bind_eq_some_iff] at h
            obtain ⟨v, h1, h2⟩ := h
            obtain ⟨x, rfl⟩ := List.isPrefixOf_iff_prefix.mp hpre
            refine ⟨[p! "-f" ++ x], v, as, ⟨?_, by simp⟩, rfl, h2⟩
            have hx : outAttached x = some v := h1
            rcases outAttached_inv hx with rfl | ⟨rfl, hv⟩
            · exact .shortEq v
            · refine .attached ?_ hv
              rintro rfl
              exact hn (.inr rfl)
          · cases h

theorem outGo_grows : ∀ {n : Nat} {args : List OsStr} {vs ws : List Str}, args.length ≤ n →
    outGo false args vs = some ws → vs.length ≤ ws.length
  | n, args, vs, ws, hn, h => by
    rcases outGo_step h with ⟨-, rfl⟩ | ⟨line, v, rest, hw, rfl, h'⟩
    · exact Nat.le_refl _
    · have hl : 0 < line.length := List.length_pos_iff.mpr hw.2
      rw [List.length_append] at hn
      cases n with
      | zero => omega
      | succ n =>
        have := outGo_grows (n := n) (by omega) h'
        rw [List.length_append] at this
        omega

/-- C84, exactly: the program starts with the format `v` if and only if its arguments give `v`: none
at all for `csv`, or one option in one of its notations; then perhaps `--`. -/
theorem C84_exact (args : List OsStr) (v : Str) : outParse args = some v ↔ OutputLine args v := by
  unfold outParse
  simp only [Option.bind_eq_bind, Option.bind_eq_some_iff]
  constructor
  · rintro ⟨ws, h, hw⟩
    rcases outGo_step h with ⟨ha, rfl⟩ | ⟨line, u, rest, hl, rfl, h2⟩
    · cases hw
      rcases ha with rfl | rfl
      · exact .inl .nothing
      · exact .inr ⟨[], rfl, .nothing⟩
    · clear h
      rcases outGo_step h2 with ⟨ha, rfl⟩ | ⟨line', u', rest', hl', rfl, h'⟩
      · cases hw
        rcases ha with rfl | rfl
        · exact .inl (by simpa using hl.1)
        · exact .inr ⟨line, rfl, hl.1⟩
      · have := outGo_grows (Nat.le_refl _) h'
        match ws, hw, this with
        | [], _, this => simp at this
        | [_], _, this => simp at this
        | _ :: _ :: _, hw, _ => cases hw
  · have key : ∀ line rest, GivesFormat line v → (rest = [] ∨ rest = [p! "--"]) →
        ∃ ws, outGo false (line ++ rest) [] = some ws ∧
          (match ws with | [] => some (c! "csv") | [v] => some v | _ => none) = some v := by
      intro line rest hl hr
      have hend : ∀ vs, outGo false rest vs = some vs := by
        intro vs
        rcases hr with rfl | rfl
        · exact outGo_nil _ _
        · rw [outGo_cons, if_pos rfl, outGo_nil]
      by_cases hne : line = []
      · subst hne
        cases hl
        exact ⟨[], hend [], rfl⟩
      · exact ⟨[v], by rw [outGo_words ⟨hl, hne⟩, hend]; rfl, rfl⟩
    rintro (h | ⟨line, rfl, h⟩)
    · obtain ⟨ws, h1, h2⟩ := key args [] h (.inl rfl)
      rw [List.append_nil] at h1
      exact ⟨ws, h1, h2⟩
    · exact key line _ h (.inr rfl)

/-- C84: the whole program.  If the arguments give the format `yaml`, it prints the items of the preset
as YAML; if they give any other format, whatever it is called, it prints them as CSV; if they give
none, it ends without printing a table. -/
theorem C84_program (σ : Oracle) (args : List OsStr) :
    ∃ items groups, items.Pairwise ItemLt ∧
      (∀ x, x ∈ items ↔ ∃ c, presetFold c ≠ c ∧ x = ⟨[c], [presetFold c]⟩) ∧
      Groups items groups ∧
      (OutputLine args (c! "yaml") → outputProgram σ args = some (.yaml (groupsYaml groups))) ∧
      (∀ v, v ≠ c! "yaml" → OutputLine args v →
        outputProgram σ args = some (.text (groupsCsv groups ++ ['\n']))) ∧
      ((¬ ∃ v, OutputLine args v) → outputProgram σ args = none) := by
  obtain ⟨items, groups, h1, h2, h3, -⟩ := C54_output σ (c! "yaml")
  have hfmt : ∀ v, (v = c! "yaml" → outputMain σ v = .yaml (groupsYaml groups)) ∧
      (v ≠ c! "yaml" → outputMain σ v = .text (groupsCsv groups ++ ['\n'])) := by
    intro v
    obtain ⟨items', groups', h1', h2', h3', h4', h5'⟩ := C54_output σ v
    have hi : items' = items := ssorted_ext h1' h1 fun x => by rw [h2, h2']
    subst hi
    obtain ⟨g, -, hg⟩ := C54_groups items'
    have : groups' = groups := by rw [hg _ h3', hg _ h3]
    subst this
    exact ⟨h4', h5'⟩
  refine ⟨items, groups, h1, h2, h3, ?_, ?_, ?_⟩
  · intro h
    simp only [outputProgram, (C84_exact _ _).mpr h]
    exact congrArg some ((hfmt _).1 rfl)
  · intro v hv h
    simp only [outputProgram, (C84_exact _ _).mpr h]
    exact congrArg some ((hfmt _).2 hv)
  · intro h
    cases hp : outParse args with
    | none => simp [outputProgram, hp]
    | some v => exact absurd ⟨v, (C84_exact _ _).mp hp⟩ h

/-- C84: the format given by a command line is unique. -/
theorem C84_unique (args : List OsStr) (u v : Str) (hu : OutputLine args u) (hv : OutputLine args v) :
    u = v := by
  rw [← C84_exact] at hu hv
  rw [hu] at hv
  exact Option.some.inj hv

/-- C84: what is rejected: the option given twice, a format that looks like a flag in an argument of
its own, every other first argument, and every command line with an argument that is not valid
UTF-8. -/
theorem C84_rejected (args : List OsStr) :
    (∀ l₁ l₂ rest u v, l₁ ≠ [] → l₂ ≠ [] → GivesFormat l₁ u → GivesFormat l₂ v →
      args = l₁ ++ l₂ ++ rest → outParse args = none) ∧
    (∀ a t rest, a ∈ [p! "-f", p! "--format"] → ¬ PlainWord t → args = a :: strBytes t :: rest →
      outParse args = none) ∧
    (∀ a rest, args = a :: rest → ¬ p! "-f" <+: a → ¬ p! "--format" <+: a → a ≠ p! "--" →
      outParse args = none) ∧
    (∀ a ∈ args, ¬ IsUtf8 a → outParse args = none) := by
  refine ⟨?_, ?_, ?_, ?_⟩
  · rintro l₁ l₂ rest u v h1 h2 g1 g2 rfl
    unfold outParse
    rw [List.append_assoc, outGo_words ⟨g1, h1⟩, outGo_words ⟨g2, h2⟩]
    cases h : outGo false rest ([] ++ [u] ++ [v]) with
    | none => rfl
    | some ws =>
      have := outGo_grows (Nat.le_refl _) h
      match ws, this with
      | [], this => simp at this
      | [_], this => simp at this
      | _ :: _ :: _, _ => rfl
  · rintro a t rest ha ht rfl
    have : outValue (strBytes t) = none := by
      cases h : outValue (strBytes t) with
      | none => rfl
      | some v =>
        obtain ⟨h1, h2⟩ := outValue_inv h
        rw [strBytes_inj h1] at ht
        exact absurd h2 ht
    unfold outParse
    rw [outGo_cons, if_neg (by rintro rfl; simp at ha), if_pos (by simpa [or_comm] using ha)]
    simp only [this]
    rfl
  · rintro a rest rfl h1 h2 h3
    unfold outParse
    rw [outGo_cons, if_neg h3, if_neg, if_neg, if_neg]
    · rfl
    · rw [List.isPrefixOf_iff_prefix]; exact h1
    · rw [List.isPrefixOf_iff_prefix]
      exact fun h => h2 (List.IsPrefix.trans ⟨[0x3D], rfl⟩ h)
    · rintro (rfl | rfl)
      · exact h2 (List.prefix_refl _)
      · exact h1 (List.prefix_refl _)
  · intro a ha hu
    cases hp : outParse args with
    | none => rfl
    | some v =>
      exfalso
      have hw : ∀ line, GivesFormat line v → ∀ a ∈ line, IsUtf8 a := by
        intro line hl
        cases hl with
        | nothing => intro a ha; cases ha
        | long _ => simpa using ⟨⟨c! "--format", by decide +kernel⟩, ⟨v, rfl⟩⟩
        | short _ => simpa using ⟨⟨c! "-f", by decide +kernel⟩, ⟨v, rfl⟩⟩
        | longEq => simpa using ⟨c! "--format=" ++ v, by rw [strBytes_append]; congr 1⟩
        | shortEq => simpa using ⟨c! "-f=" ++ v, by rw [strBytes_append]; congr 1⟩
        | attached _ _ => simpa using ⟨c! "-f" ++ v, by rw [strBytes_append]; congr 1⟩
      rcases (C84_exact _ _).mp hp with h | ⟨line, rfl, h⟩
      · exact hu (hw _ h a ha)
      · rcases List.mem_append.mp ha with ha | ha
        · exact hu (hw _ h a ha)
        · rw [List.mem_singleton] at ha
          exact hu ⟨c! "--", by rw [ha]; decide +kernel⟩

/-- The hypotheses are met, and some lines. -/
example : outParse [] = some (c! "csv") ∧ outParse [p! "-fyaml"] = some (c! "yaml") ∧
    outParse [p! "--format=yaml", p! "--"] = some (c! "yaml") ∧
    outParse [p! "-f", p! "yml"] = some (c! "yml") ∧ outParse [p! "-f", p! "-"] = some (c! "-") ∧
    outParse [p! "-f=", p! "--"] = some [] ∧ outParse [p! "-f==x"] = some (c! "=x") ∧
    outParse [p! "-f", p! "--"] = none ∧ outParse [p! "yaml"] = none ∧ outParse [p! "--form", p! "yaml"] = none ∧
    outParse [p! "-fyaml", p! "-fcsv"] = none ∧ outParse [p! "-f"] = none ∧
    outParse [p! "--", p! "x"] = none := by decide +kernel
example : GivesFormat [p! "-f", p! "yml"] (c! "yml") ∧ c! "yml" ≠ c! "yaml" ∧
    ¬ PlainWord (c! "-x") ∧ ¬ IsUtf8 [0xFF] := by
  refine ⟨.short (v := c! "yml") (.inr (by intro t h; cases h)), by decide, ?_, ?_⟩
  · rintro (h | h)
    · cases h
    · exact h _ rfl
  · rintro ⟨s, h⟩
    have hs := congrArg Option.isSome ((strFromUtf8_eq_some_iff _ s).mpr h.symm)
    rw [Option.isSome_some] at hs
    exact absurd hs (by decide +kernel)

end Chanoma
