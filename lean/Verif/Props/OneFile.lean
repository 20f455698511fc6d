import Verif.Spec.OneFile
import Verif.Props.Saved
import Verif.Proofs.Swap
/-! # C94: converters and eliminators in one file -/

namespace Chanoma

theorem charByChar_modify {m : ModifierKind} (h : m.CharByChar) :
    ∃ f : Char → Option Char, ∀ σ t, m.modify σ t = .ok (t.filterMap f) := by
  cases m with
  | characterConverter x =>
    refine ⟨fun c => some ((x.itemsMap.get? c).getD c), fun σ t => ?_⟩
    rw [ModifierKind.modify, modify_eq]
    simp [substitute, List.filterMap_eq_map']
  | characterEliminator x =>
    refine ⟨Option.guard fun c => decide (c ∉ x.chars), fun σ t => ?_⟩
    rw [ModifierKind.modify, eliminator_eq, List.filterMap_eq_filter]
  | _ => exact h.elim

theorem charByChar_run {ms : List ModifierKind} (h : ∀ m ∈ ms, m.CharByChar) :
    ∃ f : Char → Option Char, ∀ (σs : Nat → Oracle) n t,
      (ms.zipIdx n).foldlM (fun acc m => m.1.modify (σs m.2) acc) t = .ok (t.filterMap f) := by
  induction ms with
  | nil => exact ⟨some, fun σs n t => by simp⟩
  | cons m ms ih =>
    obtain ⟨f, hf⟩ := charByChar_modify (h m (by simp))
    obtain ⟨g, hg⟩ := ih fun m hm => h m (by simp [hm])
    refine ⟨fun c => (f c).bind g, fun σs n t => ?_⟩
    rw [List.zipIdx_cons, List.foldlM_cons, hf, Outcome.ok_bind, hg, List.filterMap_filterMap]

theorem charByChar_normalize {c : Chanoma} (h : ∀ m ∈ c.modifiers, m.CharByChar) :
    ∃ f : Char → Option Char, ∀ σs t, c.normalize σs false t = .ok (t.filterMap f) := by
  obtain ⟨f, hf⟩ := charByChar_run h
  exact ⟨f, fun σs t => hf σs 0 t⟩

theorem yamlFile_load {w : World} {path : OsStr} {steps : List Step} {items : List Item}
    (h : FileDescribes w path steps items) (hc : CellsNonEmpty items) (hs : ∀ s ∈ steps, s.Simple) (σ : Oracle) :
    ∃ m, Chanoma.fromConfigFile σ w path = .ok m ∧ ∀ σs debug text,
      m.normalize σs debug text = .ok (substitute (itemSubst items) (steps.foldl (fun t s => s.act t) text)) := by
  obtain ⟨hext, b, data, h1, h2, h3, h4⟩ := h
  obtain ⟨m, hm, -, hn⟩ := C35_yaml_pipeline σ w path hext b data h1 h2 items h4 hc steps h3
  refine ⟨m, hm, fun σs debug text => ?_⟩
  obtain ⟨mid, hmid, e⟩ := hn σs debug text
  have key : ∀ {steps : List Step} {t o : Str}, StepsMake steps t o → (∀ s ∈ steps, s.Simple) →
      o = steps.foldl (fun t s => s.act t) t := by
    intro steps t o h
    induction h with
    | nil => intro _; rfl
    | cons h1 _ ih =>
      intro hs
      rw [ih fun s hs' => hs s (by simp [hs']), act_makes (hs _ (by simp)) h1]; rfl
  rw [e, key hmid hs]

theorem mem_map_eq {f : Char → Option Char} {a : Char} : ([a].filterMap f = []) ↔ f a = none := by
  cases h : f a <;> simp [h]

theorem mem_map_eq' {f : Char → Option Char} {a b : Char} : ([a].filterMap f = [b]) ↔ f a = some b := by
  cases h : f a <;> simp [h]

theorem filter_getD (f : Char → Option Char) (t : Str) :
    (t.filter fun c => decide ¬ f c = none).map (fun a => (f a).getD a) = t.filterMap f := by
  induction t with
  | nil => rfl
  | cons a t ih =>
    rw [List.filter_cons, List.filterMap_cons, ← ih]
    cases e : f a <;> simp [e]

/-- C94: a converter made of any number of character converters and eliminators can be put in one YAML
file with one eliminator and items: the eliminator has the characters of which nothing remains, the
items have those of which another one remains. -/
theorem C94_one_file (c : Chanoma) (hc : ∀ m ∈ c.modifiers, m.CharByChar) :
    ∃ (drop : List Char) (items : List Item), drop.Nodup ∧ (items.map Item.from).Nodup ∧
      (∀ ch, ch ∈ drop ↔ ∀ σs, c.normalize σs false [ch] = .ok []) ∧
      (∀ i, i ∈ items ↔ ∃ a b, a ≠ b ∧ i = ⟨[a], [b]⟩ ∧ ∀ σs, c.normalize σs false [a] = .ok [b]) ∧
      ∀ (σ : Oracle) (w : World) (path : OsStr), FileDescribes w path [.eliminate drop] items →
        ∃ m, Chanoma.fromConfigFile σ w path = .ok m ∧
          ∀ σs τs debug text, m.normalize σs debug text = c.normalize τs false text := by
  obtain ⟨f, hf⟩ := charByChar_normalize hc
  obtain ⟨cs, hnd, hcs⟩ := exists_all_chars
  have hi : ∀ i, i ∈ changedItems cs (fun a => (f a).getD a) ↔ ∃ a b, a ≠ b ∧ i = ⟨[a], [b]⟩ ∧ f a = some b := by
    intro i
    simp only [changedItems, List.mem_map, List.mem_filter, decide_eq_true_eq]
    constructor
    · rintro ⟨a, ⟨-, h⟩, rfl⟩
      cases e : f a with
      | none => simp [e] at h
      | some b => exact ⟨a, b, fun e' => h (by rw [e, e']; rfl), by simp [e]⟩
    · rintro ⟨a, b, h, rfl, e⟩
      exact ⟨a, ⟨hcs a, by simpa [e] using Ne.symm h⟩, by simp [e]⟩
  refine ⟨cs.filter fun ch => f ch = none, changedItems cs fun a => (f a).getD a,
    hnd.sublist List.filter_sublist, ?_, fun ch => ?_, fun i => ?_, fun σ w path hfile => ?_⟩
  · rw [changedItems, List.map_map]
    refine List.Pairwise.map _ (fun a b hab => ?_) (hnd.sublist List.filter_sublist)
    simpa using hab
  · simp only [hf, Outcome.ok.injEq, mem_map_eq, List.mem_filter, hcs, true_and, decide_eq_true_eq]
    exact ⟨fun h _ => h, fun h => h fun _ => .insertion⟩
  · rw [hi]
    simp only [hf, Outcome.ok.injEq, mem_map_eq']
    constructor
    · rintro ⟨a, b, h1, h2, h3⟩; exact ⟨a, b, h1, h2, fun _ => h3⟩
    · rintro ⟨a, b, h1, h2, h3⟩; exact ⟨a, b, h1, h2, h3 fun _ => .insertion⟩
  · obtain ⟨m, h1, h2⟩ := yamlFile_load hfile (changedItems_cells _ _) (by simp [Step.Simple]) σ
    refine ⟨m, h1, fun σs τs debug text => ?_⟩
    rw [h2, hf, substitute_changed hcs _ fun _ => Iff.rfl]
    congr 1
    simp only [List.foldl_cons, List.foldl_nil, Step.act, List.mem_filter, hcs, true_and, decide_eq_true_eq]
    exact filter_getD f text

theorem nodup_length_le {α : Type} [DecidableEq α] {l l' : List α} (h : l.Nodup) (hs : ∀ c ∈ l, c ∈ l') : l.length ≤ l'.length := by
  induction l generalizing l' with
  | nil => simp
  | cons a l ih =>
    rw [List.nodup_cons] at h
    have ha := hs a (by simp)
    have := ih (l' := l'.erase a) h.2 fun c hc =>
      (List.mem_erase_of_ne (fun e : c = a => h.1 (e ▸ hc))).2 (hs c (by simp [hc]))
    rw [List.length_erase_of_mem ha] at this
    have := List.length_pos_of_mem ha
    simp only [List.length_cons]; omega

/-- If a character is dropped, some character remains of none. -/
theorem exists_unused {f : Char → Option Char} {e : Char} (he : f e = none) : ∃ d, ∀ a, f a ≠ some d := by
  apply Classical.byContradiction
  intro h
  obtain ⟨cs, hnd, hcs⟩ := exists_all_chars
  have h1 : cs.length ≤ (cs.filterMap f).length := nodup_length_le hnd fun d _ => by
    apply Classical.byContradiction
    intro hd
    refine h ⟨d, fun a ha => hd ?_⟩
    exact List.mem_filterMap.2 ⟨a, hcs a, ha⟩
  have h2 : (cs.filterMap f).length ≤ (cs.erase e).length := by
    have : (cs.filterMap f).length = ((cs.erase e).filterMap f).length := by
      rw [(List.Perm.filterMap f (List.perm_cons_erase (hcs e))).length_eq]
      simp [he]
    rw [this]; exact List.length_filterMap_le f _
  rw [List.length_erase_of_mem (hcs e)] at h2
  have := List.length_pos_of_mem (hcs e)
  omega

theorem lastPair_graph {cs : List Char} (hcs : ∀ c, c ∈ cs) (g : Char → Char) (c : Char) :
    image ((cs.filter fun c => g c ≠ c).map fun c => (c, g c)) c = g c := by
  unfold image lastPair
  by_cases h : g c = c
  · rw [List.find?_eq_none.2]
    · simp [h]
    · simp only [List.mem_reverse, List.mem_map, List.mem_filter, decide_eq_true_eq]
      rintro _ ⟨a, ⟨-, ha⟩, rfl⟩ rfl
      exact ha h
  · cases e : (((cs.filter fun c => g c ≠ c).map fun c => (c, g c)).reverse.find? fun p => p.1 = c) with
    | none =>
      rw [List.find?_eq_none] at e
      exact absurd (by simp) (e (c, g c) (List.mem_reverse.2 (List.mem_map.2 ⟨c, List.mem_filter.2 ⟨hcs c, by simpa using h⟩, rfl⟩)))
    | some p =>
      have h1 := List.mem_of_find?_eq_some e
      have h2 := List.find?_some e
      simp only [List.mem_reverse, List.mem_map] at h1
      obtain ⟨a, -, rfl⟩ := h1
      simp at h2; subst h2; rfl

/-- C94: the other order does as well, and then an eliminator of at most one character is enough: a
file with a converter and after it an eliminator, and no items. -/
theorem C94_other_order (c : Chanoma) (hc : ∀ m ∈ c.modifiers, m.CharByChar) :
    ∃ (pairs : List (Char × Char)) (drop : List Char), (pairs.map Prod.fst).Nodup ∧ drop.length ≤ 1 ∧
      ∀ (σ : Oracle) (w : World) (path : OsStr), FileDescribes w path [.convert pairs, .eliminate drop] [] →
        ∃ m, Chanoma.fromConfigFile σ w path = .ok m ∧
          ∀ σs τs debug text, m.normalize σs debug text = c.normalize τs false text := by
  obtain ⟨f, hf⟩ := charByChar_normalize hc
  obtain ⟨cs, hnd, hcs⟩ := exists_all_chars
  have key : ∃ (g : Char → Char) (drop : List Char), drop.length ≤ 1 ∧
      ∀ a, f a = if g a ∈ drop then none else some (g a) := by
    by_cases h : ∃ e, f e = none
    · obtain ⟨e, he⟩ := h
      obtain ⟨d, hd⟩ := exists_unused he
      refine ⟨fun a => (f a).getD d, [d], by simp, fun a => ?_⟩
      cases h : f a with
      | none => simp [h]
      | some b =>
        have : b ≠ d := fun e => hd a (h.trans (congrArg some e))
        simp [h, this]
    · refine ⟨fun a => (f a).getD a, [], by simp, fun a => ?_⟩
      cases h' : f a with
      | none => exact absurd ⟨a, h'⟩ h
      | some b => simp [h']
  obtain ⟨g, drop, hdrop, hg⟩ := key
  refine ⟨(cs.filter fun c => g c ≠ c).map fun c => (c, g c), drop, ?_, hdrop, fun σ w path hfile => ?_⟩
  · rw [List.map_map]
    refine List.Pairwise.map _ (fun a b hab => ?_) (hnd.sublist List.filter_sublist)
    simpa using hab
  · obtain ⟨m, h1, h2⟩ := yamlFile_load hfile (by simp [CellsNonEmpty]) (by simp [Step.Simple]) σ
    refine ⟨m, h1, fun σs τs debug text => ?_⟩
    rw [h2, hf]
    congr 1
    have e : ∀ t, substitute (itemSubst []) t = t := by intro t; simp [substitute, itemSubst]
    rw [e]
    simp only [List.foldl_cons, List.foldl_nil, Step.act]
    induction text with
    | nil => rfl
    | cons a t ih =>
      rw [List.map_cons, lastPair_graph hcs, List.filter_cons, List.filterMap_cons, ih, hg]
      by_cases h : g a ∈ drop <;> simp [h]

theorem steps_describable (steps : List Step) : ∃ l, DescribesAll l steps := by
  induction steps with
  | nil => exact ⟨_, .nil⟩
  | cons s ss ih =>
    obtain ⟨l, hl⟩ := ih
    cases s with
    | convert ps =>
      have := Describes.convert (ps.map fun p => ((p.1, []), (p.2, [])))
      rw [List.map_map, List.map_map, show ((fun e : (Char × Str) × (Char × Str) => (e.1.1, e.2.1)) ∘
        fun p : Char × Char => ((p.1, []), (p.2, []))) = id from rfl, List.map_id] at this
      exact ⟨_, .cons this hl⟩
    | eliminate cs =>
      have := Describes.eliminate (cs.map fun c => (c, []))
      rw [List.map_map, List.map_map, show ((fun e : Char × Str => e.1) ∘ fun c => (c, [])) = id from rfl,
        List.map_id] at this
      exact ⟨_, .cons this hl⟩
    | reduce c => exact ⟨_, .cons (.reduce c []) hl⟩
    | ligature r => exact ⟨_, .cons (.ligature r) hl⟩
    | spaces => exact ⟨_, .cons .spaces hl⟩
    | trim => exact ⟨_, .cons .trim hl⟩
    | neologdn => exact ⟨_, .cons .neologdn hl⟩

theorem items_describable (items : List Item) : ∃ l, EntriesItems l items := by
  induction items with
  | nil => exact ⟨_, .nil⟩
  | cons i is ih =>
    obtain ⟨l, hl⟩ := ih
    exact ⟨_, .cons (.one i.to i.from) hl⟩

/-- For all modifiers and items there is a file that describes them. -/
theorem file_exists (steps : List Step) (items : List Item) : ∃ w path, FileDescribes w path steps items := by
  obtain ⟨l, hl⟩ := steps_describable steps
  obtain ⟨l', hl'⟩ := items_describable items
  let data : YValue := .mapping [(.string (c! "modifiers"), .mapping l), (.string (c! "items"), .mapping l')]
  exact ⟨World.ofFiles [(p! "/c.yaml", .file [])] fun _ => some data, p! "/c.yaml",
    .inl ⟨p! "c", ⟨p! "/", [], rfl, by decide, .nil, by decide, by decide, by decide, by decide⟩,
      by decide, by decide⟩, [], data, rfl, rfl, .inr ⟨l, ⟨[], _, rfl, by simp⟩, hl⟩,
    .inr ⟨l', ⟨[_], [], rfl, by simp⟩, hl'⟩⟩

/-- C94: what can be done with one eliminator and items is exactly what works character by character,
leaving of each character at most one. -/
theorem C94_iff (F : Str → Str) :
    (∃ w path drop items, FileDescribes w path [.eliminate drop] items ∧
      ∀ σ, ∃ m, Chanoma.fromConfigFile σ w path = .ok m ∧
        ∀ σs debug text, m.normalize σs debug text = .ok (F text)) ↔
    (F [] = [] ∧ (∀ a b, F (a ++ b) = F a ++ F b) ∧ ∀ ch, (F [ch]).length ≤ 1) := by
  constructor
  · rintro ⟨w, path, drop, items, hfile, h⟩
    have e : ∀ t, F t = substitute (itemSubst items) (t.filter fun c => c ∉ drop) := by
      intro t
      obtain ⟨m, h1, h2⟩ := h .insertion
      have hc : CellsNonEmpty items := by
        obtain ⟨hext, b, data, h3, h4, h5, h6⟩ := hfile
        apply Classical.byContradiction
        intro hc
        have : ¬ DocTable data := by
          rintro ⟨items', h7, h8⟩
          have e := (docItems_ok h6).symm.trans (docItems_ok h7)
          cases e
          exact hc h8
        rw [fromConfigFile_eq, loadYaml_panic_items ⟨b, h3, h4⟩ (fromPath_yaml hext) this] at h1
        cases h1
      obtain ⟨m', h3, h4⟩ := yamlFile_load hfile hc (by simp [Step.Simple]) .insertion
      rw [h1] at h3; cases h3
      have := h2 (fun _ => .insertion) false t
      rw [h4, Outcome.ok.injEq] at this
      exact this.symm
    refine ⟨by simp [e, substitute], fun a b => by simp [e, substitute], fun ch => ?_⟩
    rw [e, substitute, List.length_map]
    exact List.length_filter_le _ [ch]
  · rintro ⟨h1, h2, h3⟩
    let f : Char → Option Char := fun ch => (F [ch]).head?
    have hf : ∀ t, F t = t.filterMap f := by
      intro t
      induction t with
      | nil => exact h1
      | cons a t ih =>
        rw [show a :: t = [a] ++ t from rfl, h2, ih, List.filterMap_append]
        congr 1
        have := h3 a
        match hF : F [a], this with
        | [], _ => simp [f, hF]
        | [d], _ => simp [f, hF]
    obtain ⟨cs, -, hcs⟩ := exists_all_chars
    obtain ⟨w, path, hfile⟩ := file_exists [.eliminate (cs.filter fun ch => f ch = none)]
      (changedItems cs fun a => (f a).getD a)
    refine ⟨w, path, _, _, hfile, fun σ => ?_⟩
    obtain ⟨m, h4, h5⟩ := yamlFile_load hfile (changedItems_cells _ _) (by simp [Step.Simple]) σ
    refine ⟨m, h4, fun σs debug text => ?_⟩
    rw [h5, hf, substitute_changed hcs _ fun _ => Iff.rfl]
    congr 1
    simp only [List.foldl_cons, List.foldl_nil, Step.act, List.mem_filter, hcs, true_and, decide_eq_true_eq]
    exact filter_getD f text

/-- C94: two converters made of character converters and eliminators do the same to every text if they
do the same to every text of one character. -/
theorem C94_single (c d : Chanoma) (hc : ∀ m ∈ c.modifiers, m.CharByChar) (hd : ∀ m ∈ d.modifiers, m.CharByChar)
    (σs τs : Nat → Oracle) (h : ∀ ch, c.normalize σs false [ch] = d.normalize τs false [ch]) (text : Str) :
    c.normalize σs false text = d.normalize τs false text := by
  obtain ⟨f, hf⟩ := charByChar_normalize hc
  obtain ⟨g, hg⟩ := charByChar_normalize hd
  have : f = g := by
    funext ch
    have := h ch
    rw [hf, hg, Outcome.ok.injEq] at this
    cases e : g ch with
    | none => exact mem_map_eq.1 (this.trans (mem_map_eq.2 e))
    | some b => exact mem_map_eq'.1 (this.trans (mem_map_eq'.2 e))
  rw [hf, hg, this]

/-! ### Examples -/

/-- A pipeline as in `C94_one_file`: `b` is dropped since it becomes `c` first, `c` is written for `a`
afterwards. -/
example : ∃ c : Chanoma, (∀ m ∈ c.modifiers, m.CharByChar) ∧ ∀ σs,
    c.normalize σs false (c! "abcd") = .ok (c! "cd") := by
  refine ⟨⟨[.characterConverter (.fromMap (HMap.collect [('b', 'c')])), .characterEliminator ⟨['c']⟩,
    .characterConverter (.fromMap (HMap.collect [('a', 'c')]))]⟩, ?_, fun σs => ?_⟩
  · intro m hm
    simp only [List.mem_cons, List.not_mem_nil, or_false] at hm
    rcases hm with rfl | rfl | rfl <;> trivial
  · simp only [Chanoma.normalize, Bool.not_false, if_true, List.zipIdx_cons, List.zipIdx_nil, List.foldlM_cons,
      List.foldlM_nil, ModifierKind.modify, modify_eq, Outcome.ok_bind, Outcome.pure_eq, eliminator_eq]
    decide +kernel

/-- Files as in `C94_one_file` and `C94_other_order`. -/
example (drop : List Char) (items : List Item) : ∃ w path, FileDescribes w path [.eliminate drop] items :=
  file_exists _ _
example (pairs : List (Char × Char)) (drop : List Char) :
    ∃ w path, FileDescribes w path [.convert pairs, .eliminate drop] [] := file_exists _ _

/-- A function as in `C94_iff`, and one that is none: a reducer. -/
example : (∀ a b : Str, (a ++ b).filter (· ≠ ' ') = a.filter (· ≠ ' ') ++ b.filter (· ≠ ' ')) ∧
    squeeze 'x' (c! "x" ++ c! "x") ≠ squeeze 'x' (c! "x") ++ squeeze 'x' (c! "x") :=
  ⟨fun a b => by simp, by decide⟩

end Chanoma
