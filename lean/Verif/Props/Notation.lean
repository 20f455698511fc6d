import Verif.Spec.Notation
import Verif.Props.Parse
/-! # C64: the notations of a modifier agree -/

namespace Chanoma

/-- The modifier that all notations build. -/
def Step.build (σ : Oracle) : Step → Outcome ModifierKind
  | .convert l => .ok (.characterConverter (.fromMap (HMap.collect l)))
  | .eliminate cs => .ok (.characterEliminator (.fromChars cs))
  | .reduce c => .ok (.consecutiveCharacterReducer ⟨c⟩)
  | .ligature rules => .ok (.ligatureTranslator ⟨HMap.collect rules⟩)
  | .spaces => .ok .dottedSpaceEliminator
  | .trim => .ok .trim
  | .neologdn => do return .neologdn (← Neologdn.new σ)

theorem build_ok (σ : Oracle) (s : Step) : ∃ m, s.build σ = .ok m ∧ Realizes m s := by
  cases s with
  | convert l => exact ⟨_, rfl, realizes_convert _⟩
  | eliminate l => exact ⟨_, rfl, realizes_eliminate _⟩
  | reduce c => exact ⟨_, rfl, realizes_reduce c⟩
  | ligature l => exact ⟨_, rfl, realizes_ligature _⟩
  | spaces => exact ⟨_, rfl, realizes_spaces⟩
  | trim => exact ⟨_, rfl, realizes_trim⟩
  | neologdn =>
    obtain ⟨x, h1, -⟩ := neologdn_new σ
    exact ⟨.neologdn x, by simp [Step.build, h1], realizes_neologdn h1⟩

theorem describes_build {k v : YValue} {s : Step} (h : Describes k v s) (σ : Oracle) :
    ModifierKind.fromYaml σ k v = s.build σ := by
  cases h with
  | convert l =>
    have e : CharacterConverter.fromYaml (.mapping
        (l.map fun e => (.string (e.1.1 :: e.1.2), .string (e.2.1 :: e.2.2)))) =
        ((l.map fun e => (YValue.string (e.1.1 :: e.1.2), YValue.string (e.2.1 :: e.2.2))).mapM (fun e => do
          let k ← yamlChar e.1
          let v ← yamlChar e.2
          return (k, v)) >>= fun l => .ok (.fromMap (HMap.collect l))) := rfl
    rw [mapM_ok_map (h := fun e : (Char × Str) × (Char × Str) => (e.1.1, e.2.1)) l (by intro a; rfl)] at e
    show (do return ModifierKind.characterConverter (← CharacterConverter.fromYaml _) : Outcome _) = _
    rw [e]
    rfl
  | eliminate l =>
    have e : CharacterEliminator.fromYaml (.sequence (l.map fun e => .string (e.1 :: e.2))) =
        ((l.map fun e => YValue.string (e.1 :: e.2)).mapM yamlChar >>= fun l => .ok (.fromChars l)) := rfl
    rw [mapM_ok_map (h := fun e : Char × Str => e.1) l (by intro a; rfl)] at e
    show (do return ModifierKind.characterEliminator (← CharacterEliminator.fromYaml _) : Outcome _) = _
    rw [e]
    rfl
  | reduce c s => rfl
  | ligature l =>
    have e : LigatureTranslator.fromYaml (.mapping (l.map fun r => (.string r.1, .string r.2))) =
        ((l.map fun r => (YValue.string r.1, YValue.string r.2)).mapM (fun e => do
          let k ← unwrap e.1.asStr
          let v ← unwrap e.2.asStr
          return (k, v)) >>= fun l => .ok ⟨HMap.collect l⟩) := rfl
    rw [mapM_ok_map (h := fun e : Str × Str => e) l (by intro a; rfl), List.map_id'] at e
    show (do return ModifierKind.ligatureTranslator (← LigatureTranslator.fromYaml _) : Outcome _) = _
    rw [e]
    rfl
  | spaces => rfl
  | trim => rfl
  | neologdn => rfl

theorem writtenChars_entries {seps : List Char} {ss : List Str} {cs : List Char}
    (h : WrittenChars seps ss cs) :
    ∃ es : List Entry1, (∀ e ∈ es, e.Fine seps) ∧ ss = es.map Entry1.text ∧ cs = es.map (·.char) := by
  induction h with
  | nil => exact ⟨[], by simp⟩
  | @cons s a ss cs h _ ih =>
    obtain ⟨es, h1, rfl, rfl⟩ := ih
    obtain ⟨b, _, r, h2, h3, h4⟩ := h
    refine ⟨⟨b, a, r⟩ :: es, ?_, by simp [Entry1.text], by simp⟩
    intro e he
    rcases List.mem_cons.mp he with rfl | he
    · exact ⟨h2, h3, h4⟩
    · exact h1 e he

theorem writtenPairs_entries {seps : List Char} {ss : List Str} {ps : List (Char × Char)}
    (h : WrittenPairs seps ss ps) :
    ∃ es : List (Entry1 × Entry1), (∀ e ∈ es, e.1.Fine seps ∧ e.2.Fine seps) ∧
      ss = es.map (fun e => e.1.text ++ ':' :: e.2.text) ∧ ps = es.map fun e => (e.1.char, e.2.char) := by
  induction h with
  | nil => exact ⟨[], by simp⟩
  | @cons s t a a' ss ps h h' _ ih =>
    obtain ⟨es, h1, rfl, rfl⟩ := ih
    obtain ⟨b, _, r, h2, h3, h4⟩ := h
    obtain ⟨b', _, r', h5, h6, h7⟩ := h'
    refine ⟨(⟨b, a, r⟩, ⟨b', a', r'⟩) :: es, ?_, by simp [Entry1.text], by simp⟩
    intro e he
    rcases List.mem_cons.mp he with rfl | he
    · exact ⟨⟨h2, h3, h4⟩, ⟨h5, h6, h7⟩⟩
    · exact h1 e he

theorem written_build {text : Str} {s : Step} (h : Written text s) (σ : Oracle) :
    ModifierKind.fromStr σ text = s.build σ := by
  cases h with
  | convert hne h =>
    obtain ⟨es, h1, rfl, rfl⟩ := writtenPairs_entries h
    exact converter_parsed σ es (by simpa using hne) h1
  | eliminate hne h =>
    obtain ⟨es, h1, rfl, rfl⟩ := writtenChars_entries h
    exact eliminator_parsed σ es (by simpa using hne) h1
  | reduce c rest => rw [fromStr_reducer, parenArg_ok]; rfl
  | ligature hk hv =>
    rw [fromStr_ligature, parenArg_ok, Outcome.ok_bind]
    unfold LigatureTranslator.fromStr
    rw [splitChar_append hk, splitChar_notMem hv]
    rfl
  | spaces => rfl
  | trim => rfl
  | neologdn =>
    unfold ModifierKind.fromStr
    rw [if_pos rfl]; rfl

theorem macro_build {m : ModifierKind} {s : Step} (h : MadeByMacro m s) (σ : Oracle) :
    s.build σ = .ok m := by
  cases h with
  | convert l => rfl
  | eliminate cs =>
    have : ∀ (cs v : List Char), cs.foldl (fun v c => v ++ [c]) v = v ++ cs := by
      intro cs
      induction cs with
      | nil => simp
      | cons c cs ih => intro v; rw [List.foldl_cons, ih]; simp
    simp [Step.build, characterEliminatorMacro, this]
  | eliminateOne c => rfl
  | reduce c => rfl
  | ligature rules => rfl

/-- C64: the string and the YAML entry for a modifier build the same modifier, which does what it
should. -/
theorem C64_string_is_yaml (σ : Oracle) (text : Str) (k v : YValue) (s : Step) (hw : Written text s)
    (hd : Describes k v s) :
    ∃ m, ModifierKind.fromStr σ text = .ok m ∧ ModifierKind.fromYaml σ k v = .ok m ∧
      ∀ τ input, ∃ out, m.modify τ input = .ok out ∧ s.Makes input out := by
  obtain ⟨m, h1, h2⟩ := build_ok σ s
  exact ⟨m, by rw [written_build hw, h1], by rw [describes_build hd, h1], h2.2⟩

/-- C64: the macro for a modifier builds the same modifier as the YAML entry and the string. -/
theorem C64_macro_is_yaml (σ : Oracle) (m : ModifierKind) (s : Step) (hm : MadeByMacro m s) :
    (∀ k v, Describes k v s → ModifierKind.fromYaml σ k v = .ok m) ∧
    (∀ text, Written text s → ModifierKind.fromStr σ text = .ok m) ∧
    ∀ τ input, ∃ out, m.modify τ input = .ok out ∧ s.Makes input out := by
  have h := macro_build hm σ
  refine ⟨fun k v hd => by rw [describes_build hd, h], fun text hw => by rw [written_build hw, h], ?_⟩
  obtain ⟨m', h1, h2⟩ := build_ok σ s
  rw [h] at h1; cases h1
  exact h2.2

/-- C64: the modifiers without parameter read only the empty string themselves, and then are the
modifier of their name. -/
theorem C64_own_parsers (σ : Oracle) (s : Str) :
    (s = [] → Trim.fromStr s = ModifierKind.fromStr σ (c! "trim") ∧
      DottedSpaceEliminator.fromStr s = ModifierKind.fromStr σ (c! "dotted_space_eliminator") ∧
      Neologdn.fromStr σ s = ModifierKind.fromStr σ (c! "neologdn")) ∧
    (s ≠ [] → ∀ r ∈ [Trim.fromStr s, DottedSpaceEliminator.fromStr s, Neologdn.fromStr σ s],
      r = .err (.modifierKindParse (c! "Cannot specify a value."))) := by
  constructor
  · rintro rfl
    exact ⟨rfl, rfl, by unfold ModifierKind.fromStr; rw [if_pos rfl]; rfl⟩
  · intro h
    have : s.isEmpty = false := by cases s <;> simp_all
    simp [Trim.fromStr, DottedSpaceEliminator.fromStr, Neologdn.fromStr, this]

/-- The three notations for deleting `a` and `ー`. -/
example : Written (c! "character_eliminator( a,ー )") (.eliminate ['a', 'ー']) ∧
    Describes (.string (c! "character_eliminator")) (.sequence [.string (c! "a"), .string (c! "ー")])
      (.eliminate ['a', 'ー']) ∧
    MadeByMacro (.characterEliminator (characterEliminatorMacro ['a', 'ー'])) (.eliminate ['a', 'ー']) := by
  refine ⟨?_, .eliminate [('a', []), ('ー', [])], .eliminate _⟩
  exact .eliminate (ss := [c! " a", c! "ー "]) (by simp)
    (.cons (.mk (c! " ") 'a' [] (by decide) (by decide) (by decide))
      (.cons (.mk [] 'ー' (c! " ") (by decide) (by decide) (by decide)) .nil))
example : Written (c! "character_converter(a: b)") (.convert [('a', 'b')]) :=
  .convert (ss := [c! "a: b"]) (by simp)
    (.cons (s := c! "a") (t := c! " b") (.mk [] 'a' [] (by decide) (by decide) (by decide))
      (.mk (c! " ") 'b' [] (by decide) (by decide) (by decide)) .nil)

end Chanoma
