import Verif.Props.Csv
import Verif.Spec.SameFile
import Verif.Spec.Files
/-! # C102: which CSV files load the same, and what files put together load -/

namespace Chanoma

theorem loads_iff (s : Str) (items : List Item) : LoadsItems s items ↔ items = (textParse s).tail.flatMap rowItems := by
  have hrows : CsvRows (strBytes s) (textParse s).tail := by
    unfold textParse
    cases s with
    | nil => exact (C28_rows_of_text _ _ (textGo_csvText [])).1 (by simp)
    | cons c s =>
      simp only
      split
      · rename_i hc
        rw [hc]
        exact (C28_rows_of_text _ _ (textGo_csvText s)).2
      · rename_i hc
        exact (C28_rows_of_text _ _ (textGo_csvText (c :: s))).1 (by simpa using hc)
  constructor
  · intro h
    obtain ⟨t, h1, h2⟩ := h (.ofFiles [(p! "a", .file (strBytes s))]) (p! "a") rfl
    obtain ⟨t', h3, h4, -⟩ := C28_rows_become_items _ (p! "a") _ _ hrows
      (show (World.ofFiles [(p! "a", .file (strBytes s))]).entry (p! "a") = _ from rfl)
    rw [h1] at h3
    cases h3
    rw [← h2, h4]
  · rintro rfl w path hf
    obtain ⟨t, h1, h2, -⟩ := C28_rows_become_items w path _ _ hrows hf
    exact ⟨t, h1, h2⟩

theorem loads_congr {s s' : Str} (h : textParse s = textParse s') (items : List Item) :
    LoadsItems s items ↔ LoadsItems s' items := by
  rw [loads_iff, loads_iff, h]

/-- The states of the reader outside of quotes, and what it has then read. -/
def Outside : CsvState → Str → List Str → Prop
  | .startRecord, cur, fields => cur = [] ∧ fields = []
  | .startField, cur, _ => cur = []
  | .inField, _, _ => True
  | _, _, _ => False

theorem complete_tail {c : Char} {a : Str} (h : Complete (c :: a)) :
    Complete a ∧ (a = [] → c = '\n' ∨ c = '\r') := by
  refine ⟨fun d hd => ?_, fun ha => ?_⟩
  · cases a with
    | nil => simp at hd
    | cons b a => exact h d (by rw [List.getLast?_cons_cons]; exact hd)
  · subst ha
    exact h c rfl

theorem textGo_append (a b : Str) (hq : '"' ∉ a) (hc : Complete a) :
    ∀ (st : CsvState) (cur : Str) (fields : List Str), Outside st cur fields → (a = [] → st = .startRecord) →
      textGo st cur fields (a ++ b) = textGo st cur fields a ++ textGo .startRecord [] [] b := by
  induction a with
  | nil =>
    intro st cur fields ho hs
    cases hs rfl
    obtain ⟨rfl, rfl⟩ := ho
    rfl
  | cons c a ih =>
    intro st cur fields ho _
    rw [List.mem_cons, not_or] at hq
    obtain ⟨h1, h2⟩ := complete_tail hc
    have ih := ih hq.2 h1
    have hne : c ≠ '"' := Ne.symm hq.1
    by_cases hnl : c = '\r' ∨ c = '\n'
    · have hnc : c ≠ ',' := by rcases hnl with rfl | rfl <;> decide
      cases st <;> simp only [Outside] at ho
      · obtain ⟨rfl, rfl⟩ := ho
        simp only [List.cons_append, textGo, if_pos hnl]
        exact ih _ _ _ ⟨rfl, rfl⟩ (fun _ => rfl)
      · subst ho
        simp only [List.cons_append, textGo, if_pos hnl, if_neg hne, if_neg hnc]
        rw [ih .startRecord [] [] ⟨rfl, rfl⟩ (fun _ => rfl)]
      · simp only [List.cons_append, textGo, if_pos hnl, if_neg hnc]
        rw [ih .startRecord [] [] ⟨rfl, rfl⟩ (fun _ => rfl)]
    · have hnil : a ≠ [] := fun e => hnl (h2 e).symm
      by_cases hcc : c = ','
      · cases st <;> simp only [Outside] at ho
        · simp only [List.cons_append, textGo, if_neg hnl, if_neg hne, if_pos hcc]
          exact ih _ _ _ rfl (fun e => absurd e hnil)
        · simp only [List.cons_append, textGo, if_neg hne, if_pos hcc]
          exact ih _ _ _ rfl (fun e => absurd e hnil)
        · simp only [List.cons_append, textGo, if_pos hcc]
          exact ih _ _ _ rfl (fun e => absurd e hnil)
      · cases st <;> simp only [Outside] at ho
        · simp only [List.cons_append, textGo, if_neg hnl, if_neg hne, if_neg hcc]
          exact ih _ _ _ trivial (fun e => absurd e hnil)
        · simp only [List.cons_append, textGo, if_neg hnl, if_neg hne, if_neg hcc]
          exact ih _ _ _ trivial (fun e => absurd e hnil)
        · simp only [List.cons_append, textGo, if_neg hnl, if_neg hcc]
          exact ih _ _ _ trivial (fun e => absurd e hnil)

theorem textGo_final (a : Str) (hq : '"' ∉ a) :
    ∀ (st : CsvState) (cur : Str) (fields : List Str), Outside st cur fields →
      textGo st cur fields (a ++ ['\n']) = textGo st cur fields a := by
  induction a with
  | nil =>
    intro st cur fields ho
    cases st <;> simp only [Outside] at ho <;> simp [textGo, ho]
  | cons c a ih =>
    intro st cur fields ho
    rw [List.mem_cons, not_or] at hq
    have hne : c ≠ '"' := Ne.symm hq.1
    cases st <;> simp only [Outside] at ho <;> simp only [List.cons_append, textGo, if_neg hne] <;>
      (repeat' split) <;>
      first
      | exact ih hq.2 _ _ _ ⟨rfl, rfl⟩
      | exact ih hq.2 _ _ _ rfl
      | exact ih hq.2 _ _ _ trivial
      | (congr 1; exact ih hq.2 _ _ _ ⟨rfl, rfl⟩)

theorem textGo_ends (e : Str) (he : e ∈ lineEnds) (a : Str) (hq : '"' ∉ a) (hr : '\r' ∉ a) :
    ∀ (st : CsvState) (cur : Str) (fields : List Str), Outside st cur fields →
      textGo st cur fields (a.flatMap fun c => if c = '\n' then e else [c]) = textGo st cur fields a := by
  have key : ∀ (st : CsvState) (cur : Str) (fields : List Str), Outside st cur fields → ∀ b,
      textGo st cur fields (e ++ b) = textGo st cur fields ('\n' :: b) := by
    intro st cur fields ho b
    simp only [lineEnds, List.mem_cons, List.not_mem_nil, or_false] at he
    rcases he with rfl | rfl | rfl <;> cases st <;> simp only [Outside] at ho <;> simp [textGo]
  induction a with
  | nil => intros; rfl
  | cons c a ih =>
    intro st cur fields ho
    rw [List.mem_cons, not_or] at hq hr
    have ih := ih hq.2 hr.2
    have hne : c ≠ '"' := Ne.symm hq.1
    rw [List.flatMap_cons]
    by_cases hc : c = '\n'
    · subst hc
      rw [if_pos rfl, key st cur fields ho]
      cases st <;> simp only [Outside] at ho <;> simp [textGo] <;> exact ih _ _ _ ⟨rfl, rfl⟩
    · rw [if_neg hc, List.cons_append, List.nil_append]
      cases st <;> simp only [Outside] at ho <;> simp only [textGo, if_neg hne] <;>
        (repeat' split) <;>
        first
        | exact ih _ _ _ ⟨rfl, rfl⟩
        | exact ih _ _ _ rfl
        | exact ih _ _ _ trivial
        | (congr 1; exact ih _ _ _ ⟨rfl, rfl⟩)

/-- The text without a byte order mark. -/
def withoutMark (s : Str) : Str :=
  match s with
  | c :: cs => if c = '﻿' then cs else c :: cs
  | [] => []

theorem textParse_eq (s : Str) : textParse s = textGo .startRecord [] [] (withoutMark s) := rfl

theorem withoutMark_sub {s : Str} {c : Char} (h : c ∈ withoutMark s) : c ∈ s := by
  unfold withoutMark at h
  split at h
  · split at h
    · exact List.mem_cons_of_mem _ h
    · exact h
  · exact h

/-- C102: it does not matter by which line ends the lines of a file without quotes end. -/
theorem C102_line_ends (s e : Str) (he : e = c! "\n" ∨ e = c! "\r\n" ∨ e = c! "\r") (hq : '"' ∉ s) (hr : '\r' ∉ s)
    (items : List Item) :
    LoadsItems s items ↔ LoadsItems (s.flatMap fun c => if c = '\n' then e else [c]) items := by
  have he' : e ∈ lineEnds := by
    simp only [lineEnds, List.mem_cons, List.not_mem_nil, or_false]
    exact he
  refine loads_congr ?_ items
  have h1 : withoutMark (s.flatMap fun c => if c = '\n' then e else [c]) =
      (withoutMark s).flatMap fun c => if c = '\n' then e else [c] := by
    cases s with
    | nil => rfl
    | cons c s =>
      rw [List.flatMap_cons]
      by_cases hc : c = '\n'
      · subst hc
        rcases he with rfl | rfl | rfl <;> simp [withoutMark]
      · rw [if_neg hc, List.cons_append, List.nil_append]
        by_cases hb : c = '﻿'
        · simp [withoutMark, hb]
        · simp [withoutMark, hb, hc]
  rw [textParse_eq, textParse_eq, h1,
    textGo_ends e he' _ (fun h => hq (withoutMark_sub h)) (fun h => hr (withoutMark_sub h)) .startRecord [] [] ⟨rfl, rfl⟩]

/-- C102: it does not matter whether the last line of a file without quotes is ended. -/
theorem C102_last_line (s : Str) (hq : '"' ∉ s) (items : List Item) :
    LoadsItems s items ↔ LoadsItems (s ++ ['\n']) items := by
  refine loads_congr ?_ items
  have h1 : withoutMark (s ++ ['\n']) = withoutMark s ++ ['\n'] := by
    cases s with
    | nil => rfl
    | cons c s => by_cases hb : c = '﻿' <;> simp [withoutMark, hb]
  rw [textParse_eq, textParse_eq, h1, textGo_final _ (fun h => hq (withoutMark_sub h)) .startRecord [] [] ⟨rfl, rfl⟩]

theorem complete_withoutMark {s : Str} (h : Complete s) : Complete (withoutMark s) := by
  cases s with
  | nil => exact h
  | cons c s =>
    by_cases hb : c = '﻿'
    · simp only [withoutMark, hb, if_true]
      exact (complete_tail h).1
    · simpa [withoutMark, hb] using h

theorem parse_append {a b : Str} (hq : '"' ∉ a) (hc : Complete a) (ha : a ≠ []) :
    textParse (a ++ b) = textParse a ++ textGo .startRecord [] [] b := by
  have h1 : withoutMark (a ++ b) = withoutMark a ++ b := by
    cases a with
    | nil => exact (ha rfl).elim
    | cons c s => by_cases hb : c = '﻿' <;> simp [withoutMark, hb]
  rw [textParse_eq, textParse_eq, h1, textGo_append _ b (fun h => hq (withoutMark_sub h)) (complete_withoutMark hc)
    .startRecord [] [] ⟨rfl, rfl⟩ (fun _ => rfl)]

/-- C102: empty lines do not matter, if they are not inside quotes. -/
theorem C102_empty_lines (a b e : Str) (he : e = c! "\n" ∨ e = c! "\r\n" ∨ e = c! "\r") (hq : '"' ∉ a)
    (hc : Complete a) (ha : a ≠ []) (items : List Item) :
    LoadsItems (a ++ b) items ↔ LoadsItems (a ++ e ++ b) items := by
  have he' : e ∈ lineEnds := by
    simp only [lineEnds, List.mem_cons, List.not_mem_nil, or_false]
    exact he
  refine loads_congr ?_ items
  rw [List.append_assoc, parse_append hq hc ha, parse_append hq hc ha, csv_lineEnd he']

/-- C102: a byte order mark in front of a file does not matter. -/
theorem C102_mark (s : Str) (h : s.head? ≠ some '﻿') (items : List Item) :
    LoadsItems s items ↔ LoadsItems ('﻿' :: s) items := by
  refine loads_congr ?_ items
  rw [textParse_bom (textGo_csvText s), textParse_text (textGo_csvText s) h]

/-- C102: two files put together, the first without quotes and with its last line ended: the items of the first, an
item for each cell of the header of the second but the last, and the items of the second. -/
theorem C102_put_together (a b : Str) (header header' : List Str) (rows rows' : List (List Str))
    (h1 : CsvText (header :: rows) a) (h2 : CsvText (header' :: rows') b) (hb : a.head? ≠ some '﻿')
    (hb' : b.head? ≠ some '﻿') (hq : '"' ∉ a) (hc : Complete a) :
    ∃ is is', LoadsItems a is ∧ LoadsItems b is' ∧ LoadsItems (a ++ b) (is ++ rowItems header' ++ is') := by
  have ha : a ≠ [] := by
    rintro rfl
    have := csv_text h1
    exact absurd this (by simp [textGo])
  refine ⟨rows.flatMap rowItems, rows'.flatMap rowItems, (loads_iff ..).2 ?_, (loads_iff ..).2 ?_, (loads_iff ..).2 ?_⟩
  · rw [textParse_text h1 hb]; rfl
  · rw [textParse_text h2 hb']; rfl
  · rw [parse_append hq hc ha, textParse_text h1 hb, csv_text h2]
    simp

theorem quotedLine_text : ∀ {r : List Str}, r ≠ [] → RecordText r (quotedLine r)
  | [], h => (h rfl).elim
  | [f], _ => by
    have := RecordText.one (FieldText.quoted f (g := []) (by simp [Plain]) (by simp))
    simpa [quotedLine, doubleQuotes, List.intercalate] using this
  | f :: g :: r, _ => by
    have h1 := FieldText.quoted f (g := []) (by simp [Plain]) (by simp)
    have h2 := RecordText.cons h1 (quotedLine_text (r := g :: r) (by simp))
    simpa [quotedLine, doubleQuotes, List.intercalate, List.intersperse] using h2

/-- C102: all cells may be quoted: a file written in this way loads the items of its rows after the first. -/
theorem C102_quoted (header : List Str) (rows : List (List Str)) (h : ∀ r ∈ header :: rows, r ≠ []) :
    LoadsItems ((header :: rows).flatMap fun r => quotedLine r ++ ['\n']) (rows.flatMap rowItems) := by
  have key : ∀ rs : List (List Str), (∀ r ∈ rs, r ≠ []) → CsvText rs (rs.flatMap fun r => quotedLine r ++ ['\n']) := by
    intro rs
    induction rs with
    | nil => intro _; exact .nil
    | cons r rs ih =>
      intro h
      rw [List.flatMap_cons]
      refine .record (quotedLine_text (h r (by simp))) ?_ (by decide) (ih fun r hr => h r (by simp [hr]))
      cases r with
      | nil => exact (h [] (by simp) rfl).elim
      | cons f r => cases r <;> simp [quotedLine, List.intercalate]
  rw [loads_iff, textParse_text (key _ h)]
  · rfl
  · cases header with
    | nil => exact (h [] (by simp) rfl).elim
    | cons f r => cases r <;> simp [quotedLine, List.intercalate]

/-- Two files put together: the header of the second is taken for a rule, so that `f` becomes `t`. -/
example : (Chanoma.fromConfigFile .insertion (.ofFiles [(p! "/work/a.csv", .text (c! "from,to\na,b\n" ++ c! "from,to\nc,d\n"))])
      (p! "/work/a.csv") >>= fun c => c.normalize (fun _ => .insertion) false (c! "a cup of tea")) = .ok (c! "b dup ot teb") := by
  decide +kernel

/-- The hypotheses are met by these files. -/
example : CsvText [[c! "from", c! "to"], [c! "a", c! "b"]] (c! "from,to\na,b\n") ∧ Complete (c! "from,to\na,b\n") ∧
    '"' ∉ c! "from,to\na,b\n" := by
  refine ⟨?_, fun c h => ?_, by decide⟩
  · rw [show [[c! "from", c! "to"], [c! "a", c! "b"]] = textGo .startRecord [] [] (c! "from,to\na,b\n") by decide +kernel]
    exact textGo_csvText _
  · simp at h; exact .inl h.symm

/-- Inside quotes a line end counts: other line ends give another item. -/
example : ¬ ∀ items, LoadsItems (c! "h\n\"a\nb\",c\n") items ↔ LoadsItems (c! "h\r\n\"a\r\nb\",c\r\n") items := by
  intro h
  have h1 := (loads_iff (c! "h\n\"a\nb\",c\n") _).2 rfl
  have h2 := (loads_iff _ _).1 ((h _).1 h1)
  revert h2
  decide +kernel

end Chanoma
