import Verif.Model.File
import Verif.Spec.Csv
import Verif.Proofs.ItemMap
import Verif.Proofs.Pipeline
import Verif.Proofs.Utf8
/-! # Lemmas about CSV reading and writing -/

namespace Chanoma

/-! ## A reader on characters -/

/-- The reader automaton on characters; `cur` is the field and `fields` the record read so far. -/
def textGo : CsvState → Str → List Str → Str → List (List Str)
  | .startRecord, _, _, [] => []
  | _, cur, fields, [] => [fields ++ [cur]]
  | st, cur, fields, c :: cs =>
    match st with
    | .inQuoted =>
      if c = '"' then textGo .inDoubleQuote cur fields cs
      else textGo .inQuoted (cur ++ [c]) fields cs
    | .startRecord =>
      if c = '\r' ∨ c = '\n' then textGo .startRecord [] [] cs
      else if c = '"' then textGo .inQuoted [] [] cs
      else if c = ',' then textGo .startField [] [[]] cs
      else textGo .inField [c] [] cs
    | .startField =>
      if c = '"' then textGo .inQuoted [] fields cs
      else if c = ',' then textGo .startField [] (fields ++ [[]]) cs
      else if c = '\r' ∨ c = '\n' then (fields ++ [[]]) :: textGo .startRecord [] [] cs
      else textGo .inField [c] fields cs
    | .inField =>
      if c = ',' then textGo .startField [] (fields ++ [cur]) cs
      else if c = '\r' ∨ c = '\n' then (fields ++ [cur]) :: textGo .startRecord [] [] cs
      else textGo .inField (cur ++ [c]) fields cs
    | .inDoubleQuote =>
      if c = '"' then textGo .inQuoted (cur ++ [c]) fields cs
      else if c = ',' then textGo .startField [] (fields ++ [cur]) cs
      else if c = '\r' ∨ c = '\n' then (fields ++ [cur]) :: textGo .startRecord [] [] cs
      else textGo .inField (cur ++ [c]) fields cs

/-- All records of a CSV text, including the first one. -/
def textParse (s : Str) : List (List Str) :=
  textGo .startRecord [] []
    (match s with
      | c :: cs => if c = '\ufeff' then cs else c :: cs
      | [] => [])

/-- What the reader does after a complete field `f` when a separator, a line end or the end of
the text follows. -/
def csvAfter (f : Str) (fields : List Str) : Str → List (List Str)
  | [] => [fields ++ [f]]
  | c :: cs => if c = ',' then textGo .startField [] (fields ++ [f]) cs
    else (fields ++ [f]) :: textGo .startRecord [] [] cs

/-- The text ends or continues with a separator or a line end. -/
def FieldEnd : Str → Prop
  | [] => True
  | c :: _ => c = ',' ∨ c = '\r' ∨ c = '\n'

theorem fieldEnd_comma (cs : Str) : FieldEnd (',' :: cs) := .inl rfl

theorem csv_inField_end {f : Str} {fields : List Str} {rest : Str} (h : FieldEnd rest) :
    textGo .inField f fields rest = csvAfter f fields rest := by
  cases rest with
  | nil => rfl
  | cons c cs => rcases h with rfl | rfl | rfl <;> simp [textGo, csvAfter]

theorem csv_dq_end {f : Str} {fields : List Str} {rest : Str} (h : FieldEnd rest) :
    textGo .inDoubleQuote f fields rest = csvAfter f fields rest := by
  cases rest with
  | nil => rfl
  | cons c cs => rcases h with rfl | rfl | rfl <;> simp [textGo, csvAfter]

theorem csv_startField_end {fields : List Str} {rest : Str} (h : FieldEnd rest) :
    textGo .startField [] fields rest = csvAfter [] fields rest := by
  cases rest with
  | nil => rfl
  | cons c cs => rcases h with rfl | rfl | rfl <;> simp [textGo, csvAfter]

theorem csv_bare {x : Str} (hx : Plain x) (f : Str)
    (fields : List Str) {rest : Str} (h : FieldEnd rest) :
    textGo .inField f fields (x ++ rest) = csvAfter (f ++ x) fields rest := by
  induction x generalizing f with
  | nil => simpa using csv_inField_end h
  | cons c x ih =>
    obtain ⟨h1, h2, h3⟩ := hx c (by simp)
    have e : textGo .inField f fields (c :: (x ++ rest)) = textGo .inField (f ++ [c]) fields (x ++ rest) := by
      rw [textGo]; simp [h1, h2, h3]
    rw [List.cons_append, e, ih (fun d hd => hx d (by simp [hd]))]
    simp

/-- After a closing quote. -/
theorem csv_dq {g : Str} (hg : Plain g) (hq : g.head? ≠ some '"') (f : Str) (fields : List Str)
    {rest : Str} (h : FieldEnd rest) :
    textGo .inDoubleQuote f fields (g ++ rest) = csvAfter (f ++ g) fields rest := by
  cases g with
  | nil => simpa using csv_dq_end h
  | cons c g =>
    obtain ⟨h1, h2, h3⟩ := hg c (by simp)
    have h4 : c ≠ '"' := by simpa using hq
    rw [List.cons_append, textGo]
    simp only [h1, h2, h3, h4, if_false, or_self]
    rw [csv_bare (fun d hd => hg d (by simp [hd])) _ _ h]
    simp

theorem doubleQuotes_cons (c : Char) (x : Str) :
    doubleQuotes (c :: x) = (if c = '"' then ['"', '"'] else [c]) ++ doubleQuotes x := by
  simp [doubleQuotes]

theorem csv_inside (x : Str) (f : Str) (fields : List Str) (rest : Str) :
    textGo .inQuoted f fields (doubleQuotes x ++ rest) = textGo .inQuoted (f ++ x) fields rest := by
  induction x generalizing f with
  | nil => simp [doubleQuotes]
  | cons c x ih =>
    rw [doubleQuotes_cons]
    by_cases hc : c = '"'
    · subst hc
      simp only [if_true, List.cons_append, List.nil_append]
      rw [textGo]; simp only [if_true]
      rw [textGo]; simp only [if_true]
      rw [ih]; simp
    · simp only [hc, if_false, List.cons_append, List.nil_append]
      rw [textGo]; simp only [hc, if_false]
      rw [ih]; simp

theorem csv_quoted (x : Str) {g : Str} (hg : Plain g) (hq : g.head? ≠ some '"') (f : Str)
    (fields : List Str) {rest : Str} (h : FieldEnd rest) :
    textGo .inQuoted f fields (doubleQuotes x ++ ('"' :: (g ++ rest))) =
      csvAfter (f ++ x ++ g) fields rest := by
  rw [csv_inside, textGo]; simp only [if_true]
  rw [csv_dq hg hq _ _ h]

theorem csv_unclosed (x : Str) (f : Str) (fields : List Str) :
    textGo .inQuoted f fields (doubleQuotes x) = [fields ++ [f ++ x]] := by
  have := csv_inside x f fields []
  simpa [textGo] using this

/-- A field text is read as its field, at the start of a field. -/
theorem csv_field {f x : Str} (hx : FieldText f x) (fields : List Str) {rest : Str}
    (h : FieldEnd rest) : textGo .startField [] fields (x ++ rest) = csvAfter f fields rest := by
  cases hx with
  | bare h1 h2 =>
    cases f with
    | nil => simpa using csv_startField_end h
    | cons c x =>
      obtain ⟨h3, h4, h5⟩ := h1 c (by simp)
      have h6 : c ≠ '"' := by simpa using h2
      rw [List.cons_append, textGo]
      simp only [h3, h4, h5, h6, if_false, or_self]
      rw [csv_bare (fun d hd => h1 d (by simp [hd])) _ _ h]
      simp
  | quoted f hg hq =>
    simp only [List.cons_append, List.append_assoc]
    rw [textGo]; simp only [if_true]
    rw [csv_quoted f hg hq [] fields h]; simp

/-- The same at the start of a record, unless the line is empty. -/
theorem csv_field_first {f x : Str} (hx : FieldText f x) {rest : Str}
    (h : FieldEnd rest) (hne : x ≠ [] ∨ ∃ cs, rest = ',' :: cs) :
    textGo .startRecord [] [] (x ++ rest) = csvAfter f [] rest := by
  cases hx with
  | bare h1 h2 =>
    cases f with
    | nil =>
      rcases hne with hne | ⟨cs, rfl⟩
      · exact absurd rfl hne
      · simp [textGo, csvAfter]
    | cons c x =>
      obtain ⟨h3, h4, h5⟩ := h1 c (by simp)
      have h6 : c ≠ '"' := by simpa using h2
      rw [List.cons_append, textGo]
      simp only [h3, h4, h5, h6, if_false, or_self]
      rw [csv_bare (fun d hd => h1 d (by simp [hd])) _ _ h]
      simp
  | quoted f hg hq =>
    simp only [List.cons_append, List.append_assoc]
    rw [textGo]; simp
    rw [csv_quoted f hg hq [] [] h]; simp

/-- What the reader does after a complete record. -/
def csvAfterRecord (r : List Str) : Str → List (List Str)
  | [] => [r]
  | _ :: cs => r :: textGo .startRecord [] [] cs

/-- The text ends or continues with a line end. -/
def LineEnd : Str → Prop
  | [] => True
  | c :: _ => c = '\r' ∨ c = '\n'

theorem LineEnd.field {rest : Str} (h : LineEnd rest) : FieldEnd rest := by
  cases rest with
  | nil => trivial
  | cons c cs => exact .inr h

theorem csvAfter_line {f : Str} {fields : List Str} {rest : Str} (h : LineEnd rest) :
    csvAfter f fields rest = csvAfterRecord (fields ++ [f]) rest := by
  cases rest with
  | nil => rfl
  | cons c cs => rcases h with rfl | rfl <;> simp [csvAfter, csvAfterRecord]

theorem csv_record {r : List Str} {x : Str} (hx : RecordText r x) (fields : List Str) {rest : Str}
    (h : LineEnd rest) :
    textGo .startField [] fields (x ++ rest) = csvAfterRecord (fields ++ r) rest := by
  induction hx generalizing fields with
  | one hf => rw [csv_field hf _ h.field, csvAfter_line h]
  | @cons f x r y hf _ ih =>
    rw [List.append_assoc, List.cons_append, csv_field hf _ (fieldEnd_comma _), csvAfter, if_pos rfl, ih]
    simp

theorem csv_record_first {r : List Str} {x : Str} (hx : RecordText r x) (hne : x ≠ []) {rest : Str}
    (h : LineEnd rest) : textGo .startRecord [] [] (x ++ rest) = csvAfterRecord r rest := by
  cases hx with
  | one hf => rw [csv_field_first hf h.field (.inl hne), csvAfter_line h]; rfl
  | @cons f x r y hf hr =>
    rw [List.append_assoc, List.cons_append, csv_field_first hf (fieldEnd_comma _) (.inr ⟨_, rfl⟩), csvAfter, if_pos rfl,
      csv_record hr _ h]
    rfl

theorem csv_last {r : List Str} {x : Str} (hx : LastText r x) (fields : List Str) :
    textGo .startField [] fields x = [fields ++ r] := by
  induction hx generalizing fields with
  | closed hx =>
    have := csv_record hx fields (rest := []) trivial
    simpa [csvAfterRecord] using this
  | unclosed f =>
    rw [textGo]; simp only [if_true]
    rw [csv_unclosed]; simp
  | cons hf _ ih =>
    rw [csv_field hf _ (fieldEnd_comma _), csvAfter, if_pos rfl, ih]
    simp

theorem csv_last_first {r : List Str} {x : Str} (hx : LastText r x) (hne : x ≠ []) :
    textGo .startRecord [] [] x = [r] := by
  cases hx with
  | closed hx =>
    have := csv_record_first hx hne (rest := []) trivial
    simpa [csvAfterRecord] using this
  | unclosed f =>
    rw [textGo]
    simp only [show ¬ ('"' = '\r' ∨ '"' = '\n') by decide, if_false, if_true]
    rw [csv_unclosed]; simp
  | cons hf hr =>
    rw [csv_field_first hf (fieldEnd_comma _) (.inr ⟨_, rfl⟩), csvAfter, if_pos rfl, csv_last hr]
    simp

theorem csv_lineEnd {e : Str} (he : e ∈ lineEnds) (s : Str) :
    textGo .startRecord [] [] (e ++ s) = textGo .startRecord [] [] s := by
  simp [lineEnds] at he
  rcases he with rfl | rfl | rfl <;> simp [textGo]

theorem csv_text {rs : List (List Str)} {s : Str} (h : CsvText rs s) :
    textGo .startRecord [] [] s = rs := by
  induction h with
  | nil => rfl
  | empty he _ ih => rw [csv_lineEnd he, ih]
  | @record r x e rs s hx hne he _ ih =>
    have : ∃ c cs, e = c :: cs ∧ (c = '\r' ∨ c = '\n') ∧
        textGo .startRecord [] [] (cs ++ s) = textGo .startRecord [] [] s := by
      simp [lineEnds] at he
      rcases he with rfl | rfl | rfl
      · exact ⟨_, _, rfl, by simp, rfl⟩
      · exact ⟨_, _, rfl, by simp, by simp [textGo]⟩
      · exact ⟨_, _, rfl, by simp, rfl⟩
    obtain ⟨c, cs, rfl, hc, hcs⟩ := this
    have hl : LineEnd (c :: (cs ++ s)) := hc
    rw [List.append_assoc, List.cons_append, csv_record_first hx hne hl]
    simp only [csvAfterRecord, hcs, ih]
  | last hx hne => exact csv_last_first hx hne

theorem textParse_text {rs : List (List Str)} {s : Str} (h : CsvText rs s)
    (hb : s.head? ≠ some '﻿') : textParse s = rs := by
  unfold textParse
  cases s with
  | nil => exact csv_text h
  | cons c s =>
    have : c ≠ '﻿' := by simpa using hb
    simp only [this, if_false]
    exact csv_text h

theorem textParse_bom {rs : List (List Str)} {s : Str} (h : CsvText rs s) :
    textParse ('﻿' :: s) = rs := by
  unfold textParse
  simp only [if_true]
  exact csv_text h

/-! ## Records to items -/

theorem textGo_ne_nil (st : CsvState) (cur : Str) (fields : List Str) (s : Str) :
    ∀ r ∈ textGo st cur fields s, r ≠ [] := by
  induction s generalizing st cur fields with
  | nil => cases st <;> simp [textGo]
  | cons c s ih =>
    cases st <;> rw [textGo] <;> (repeat' split) <;>
      (first | exact ih _ _ _ |
        (intro r hr; rcases List.mem_cons.mp hr with rfl | hr
         · simp
         · exact ih _ _ _ r hr))

theorem csvRecordItems_eq {r : List Str} (h : r ≠ []) : csvRecordItems r = .ok (rowItems r) := by
  obtain ⟨l, hl⟩ : ∃ l, r.getLast? = some l := by
    cases hl : r.getLast? with
    | none => simp at hl; exact absurd hl h
    | some l => exact ⟨l, rfl⟩
  have hlen := List.length_pos_iff.mpr h
  simp only [csvRecordItems, hl, unwrap, Outcome.ok_bind]
  have hu : usub r.length 1 = .ok (r.length - 1) := by unfold usub; rw [if_pos (by omega)]
  rw [hu, Outcome.ok_bind]
  have hgo : ∀ n, n ≤ r.length - 1 →
      (List.range n).foldlM (fun items i => do
        let f ← getIdx r i
        return items ++ [(⟨f, l⟩ : Item)]) [] = .ok ((r.take n).map fun f => ⟨f, l⟩) := by
    intro n
    induction n with
    | zero => intro _; rfl
    | succ n ih =>
      intro hn
      have hlt : n < r.length := by omega
      rw [List.range_succ, List.foldlM_append, ih (by omega), Outcome.ok_bind]
      simp only [List.foldlM_cons, List.foldlM_nil]
      have : getIdx r n = .ok r[n] := by
        unfold getIdx; rw [List.getElem?_eq_getElem hlt]; rfl
      simp only [this, Outcome.ok_bind, Outcome.pure_eq]
      rw [List.take_add_one, List.getElem?_eq_getElem hlt, List.map_append]
      rfl
  rw [hgo _ (Nat.le_refl _)]
  simp [rowItems, hl, List.dropLast_eq_take]

/-! ## The reader on bytes -/

/-- A byte that has no special meaning. -/
def Ordinary (b : UInt8) : Prop := b ≠ 0x22 ∧ b ≠ 0x2C ∧ b ≠ 0x0D ∧ b ≠ 0x0A

theorem ordinary_of_ge {b : UInt8} (h : 128 ≤ b.toNat) : Ordinary b := by
  refine ⟨?_, ?_, ?_, ?_⟩ <;> (rintro rfl; revert h; decide)

theorem csvGo_inField_ordinary {bs : List UInt8} (h : ∀ b ∈ bs, Ordinary b) (cur : List UInt8)
    (fields : List (List UInt8)) (rest : List UInt8) :
    csvGo .inField cur fields (bs ++ rest) = csvGo .inField (cur ++ bs) fields rest := by
  induction bs generalizing cur with
  | nil => simp
  | cons b bs ih =>
    obtain ⟨h1, h2, h3, h4⟩ := h b (by simp)
    rw [List.cons_append, csvGo]
    simp only [h2, h3, h4, if_false, or_self]
    rw [ih fun b hb => h b (by simp [hb])]
    simp

theorem csvGo_inQuoted_ordinary {bs : List UInt8} (h : ∀ b ∈ bs, Ordinary b) (cur : List UInt8)
    (fields : List (List UInt8)) (rest : List UInt8) :
    csvGo .inQuoted cur fields (bs ++ rest) = csvGo .inQuoted (cur ++ bs) fields rest := by
  induction bs generalizing cur with
  | nil => simp
  | cons b bs ih =>
    obtain ⟨h1, h2, h3, h4⟩ := h b (by simp)
    rw [List.cons_append, csvGo]
    simp only [h1, if_false]
    rw [ih fun b hb => h b (by simp [hb])]
    simp

/-- The state after the bytes of an ordinary character. -/
def CsvState.next : CsvState → CsvState
  | .inQuoted => .inQuoted
  | _ => .inField

/-- The part of the current field that is kept when an ordinary character comes. -/
def CsvState.keep {α : Type} : CsvState → List α → List α
  | .startRecord, _ => []
  | .startField, _ => []
  | _, cur => cur

/-- The part of the current record that is kept when an ordinary character comes. -/
def CsvState.keepFields {α : Type} : CsvState → List α → List α
  | .startRecord, _ => []
  | _, fields => fields

theorem csvGo_ordinary {b : UInt8} {bs : List UInt8} (h : ∀ x ∈ b :: bs, Ordinary x) (st : CsvState)
    (cur : List UInt8) (fields : List (List UInt8)) (rest : List UInt8) :
    csvGo st cur fields (b :: bs ++ rest) =
      csvGo st.next (st.keep cur ++ (b :: bs)) (st.keepFields fields) rest := by
  obtain ⟨h1, h2, h3, h4⟩ := h b (by simp)
  have hbs : ∀ x ∈ bs, Ordinary x := fun x hx => h x (by simp [hx])
  cases st with
  | inQuoted => exact csvGo_inQuoted_ordinary h cur fields rest
  | _ =>
    rw [List.cons_append, csvGo]
    simp only [h1, h2, h3, h4, if_false, or_self]
    rw [csvGo_inField_ordinary hbs]
    simp [CsvState.next, CsvState.keep, CsvState.keepFields]

theorem textGo_ordinary {c : Char} (h1 : c ≠ '"') (h2 : c ≠ ',') (h3 : c ≠ '\r') (h4 : c ≠ '\n')
    (st : CsvState) (cur : Str) (fields : List Str) (rest : Str) :
    textGo st cur fields (c :: rest) =
      textGo st.next (st.keep cur ++ [c]) (st.keepFields fields) rest := by
  cases st <;> rw [textGo] <;>
    simp [h1, h2, h3, h4, CsvState.next, CsvState.keep, CsvState.keepFields]

theorem keep_strBytes (st : CsvState) (cur : Str) : st.keep (strBytes cur) = strBytes (st.keep cur) := by
  cases st <;> rfl

theorem keepFields_map (st : CsvState) (fields : List Str) :
    st.keepFields (fields.map strBytes) = (st.keepFields fields).map strBytes := by
  cases st <;> rfl

/-- On the encoding of a text, the reader on bytes does what the reader on characters does. -/
theorem csvGo_strBytes (s : Str) (st : CsvState) (cur : Str) (fields : List Str) :
    csvGo st (strBytes cur) (fields.map strBytes) (strBytes s) =
      (textGo st cur fields s).map (·.map strBytes) := by
  induction s generalizing st cur fields with
  | nil => cases st <;> simp [csvGo, textGo, strBytes]
  | cons c s ih =>
    have hone : ∀ c : Char, c.toNat < 128 → strBytes [c] = [UInt8.ofNat c.toNat] := by
      intro c hc; simp [strBytes, encode_ascii hc]
    have hsnoc : ∀ c : Char, c.toNat < 128 → ∀ cur : Str,
        strBytes (cur ++ [c]) = strBytes cur ++ [UInt8.ofNat c.toNat] := by
      intro c hc cur; rw [strBytes_append, hone c hc]
    have ih0 : ∀ (st : CsvState) (fields : List Str),
        csvGo st [] (fields.map strBytes) (strBytes s) = (textGo st [] fields s).map (·.map strBytes) :=
      fun st fields => ih st [] fields
    have ih00 : ∀ (st : CsvState),
        csvGo st [] [] (strBytes s) = (textGo st [] [] s).map (·.map strBytes) :=
      fun st => ih st [] []
    have ihs : ∀ (st : CsvState) (cur : Str) (fields : List Str),
        csvGo st [] (fields.map strBytes ++ [strBytes cur]) (strBytes s) =
          (textGo st [] (fields ++ [cur]) s).map (·.map strBytes) := by
      intro st cur fields
      have := ih st [] (fields ++ [cur])
      simpa [show strBytes [] = [] from rfl] using this
    have ihe : ∀ (st : CsvState) (fields : List Str),
        csvGo st [] (fields.map strBytes ++ [[]]) (strBytes s) =
          (textGo st [] (fields ++ [[]]) s).map (·.map strBytes) :=
      fun st fields => ihs st [] fields
    have ihe1 : ∀ (st : CsvState),
        csvGo st [] [[]] (strBytes s) = (textGo st [] [[]] s).map (·.map strBytes) :=
      fun st => ihs st [] []
    rw [strBytes_cons]
    by_cases hq : c = '"'
    · subst hq
      have hcur := ih .inQuoted (cur ++ ['"']) fields
      rw [hsnoc _ (by decide)] at hcur
      have e : String.utf8EncodeChar '"' = [0x22] := by decide
      have e' : UInt8.ofNat ('"' : Char).toNat = 0x22 := by decide
      rw [e'] at hcur
      have hb : ¬ ((0x22 : UInt8) = 0x0D ∨ (0x22 : UInt8) = 0x0A) := by decide
      have hb2 : ¬ ((0x22 : UInt8) = 0x2C) := by decide
      have hc : ¬ ('"' = '\r' ∨ '"' = '\n') := by decide
      have hc2 : ¬ ('"' = ',') := by decide
      have hfield := ih .inField (cur ++ ['"']) fields
      rw [hsnoc _ (by decide), e'] at hfield
      rw [e, List.cons_append, List.nil_append]
      cases st <;> rw [csvGo, textGo] <;> simp only [if_true, hb, hb2, hc, hc2, if_false]
      · exact ih00 _
      · exact ih0 _ _
      · exact hfield
      · exact ih _ _ _
      · exact hcur
    by_cases hm : c = ','
    · subst hm
      have e : String.utf8EncodeChar ',' = [0x2C] := by decide
      have e' : UInt8.ofNat (',' : Char).toNat = 0x2C := by decide
      have hb : ¬ ((0x2C : UInt8) = 0x0D ∨ (0x2C : UInt8) = 0x0A) := by decide
      have hb2 : ¬ ((0x2C : UInt8) = 0x22) := by decide
      have hc : ¬ (',' = '\r' ∨ ',' = '\n') := by decide
      have hc2 : ¬ (',' = '"') := by decide
      have hcur := ih .inQuoted (cur ++ [',']) fields
      rw [hsnoc _ (by decide), e'] at hcur
      rw [e, List.cons_append, List.nil_append]
      cases st <;> rw [csvGo, textGo] <;> simp only [if_true, hb, hb2, hc, hc2, if_false]
      · exact ihe1 _
      · exact ihe _ _
      · exact ihs _ _ _
      · exact hcur
      · exact ihs _ _ _
    by_cases hl : c = '\r' ∨ c = '\n'
    · have e : ∃ b : UInt8, String.utf8EncodeChar c = [b] ∧ (b = 0x0D ∨ b = 0x0A) ∧
          UInt8.ofNat c.toNat = b ∧ c.toNat < 128 := by
        rcases hl with rfl | rfl
        · exact ⟨0x0D, by decide⟩
        · exact ⟨0x0A, by decide⟩
      obtain ⟨b, e, hb, e', hlt⟩ := e
      have hb2 : ¬ (b = 0x22) := by rcases hb with rfl | rfl <;> decide
      have hb3 : ¬ (b = 0x2C) := by rcases hb with rfl | rfl <;> decide
      have hcur := ih .inQuoted (cur ++ [c]) fields
      rw [hsnoc _ hlt, e'] at hcur
      rw [e, List.cons_append, List.nil_append]
      cases st <;> rw [csvGo, textGo] <;>
        simp only [hb, hb2, hb3, hl, hq, hm, if_true, if_false, List.map_cons, ih00]
      · simp [strBytes]
      · simp
      · exact hcur
      · simp
    · have hl1 : c ≠ '\r' := fun h => hl (.inl h)
      have hl2 : c ≠ '\n' := fun h => hl (.inr h)
      rw [textGo_ordinary hq hm hl1 hl2]
      have hord : ∀ b ∈ String.utf8EncodeChar c, Ordinary b := by
        by_cases hlt : c.toNat < 128
        · rw [encode_ascii hlt]
          intro b hb
          simp only [List.mem_cons, List.not_mem_nil, or_false] at hb
          subst hb
          have key : ∀ d : Char, d.toNat < 128 → UInt8.ofNat c.toNat = UInt8.ofNat d.toNat → c = d := by
            intro d hd h
            rw [ofNat_eq_iff (by omega) (by omega)] at h
            exact toNat_inj h
          exact ⟨fun h => hq (key '"' (by decide) h), fun h => hm (key ',' (by decide) h),
            fun h => hl1 (key '\r' (by decide) h), fun h => hl2 (key '\n' (by decide) h)⟩
        · exact fun b hb => ordinary_of_ge (encode_nonascii (by omega) b hb)
      obtain ⟨x, xs, hx, _, _⟩ := encode_shape c
      rw [hx] at hord ⊢
      rw [csvGo_ordinary hord, ← ih, keep_strBytes, keepFields_map, strBytes_append]
      have : strBytes [c] = x :: xs := by simp [strBytes, hx]
      rw [this]

theorem bom_encode : String.utf8EncodeChar '﻿' = [0xEF, 0xBB, 0xBF] := by decide

/-- A text whose bytes start with the byte order mark starts with U+FEFF. -/
theorem bom_prefix {s : Str} {bs : List UInt8} (h : strBytes s = 0xEF :: 0xBB :: 0xBF :: bs) :
    ∃ t, s = '﻿' :: t ∧ strBytes t = bs := by
  cases s with
  | nil => simp [strBytes] at h
  | cons c s =>
    have h1 := utf8Head_encode c (strBytes s)
    rw [← strBytes_cons, h] at h1
    have h2 := utf8Head_encode '﻿' bs
    rw [bom_encode] at h2
    simp only [List.cons_append, List.nil_append] at h2
    rw [h2] at h1
    simp only [Option.some.injEq, Prod.mk.injEq] at h1
    obtain ⟨rfl, h3⟩ := h1
    exact ⟨s, rfl, h3.symm⟩

theorem csvParse_strBytes (s : Str) : csvParse (strBytes s) = (textParse s).map (·.map strBytes) := by
  unfold csvParse
  split
  · rename_i bs h
    obtain ⟨t, rfl, rfl⟩ := bom_prefix h
    unfold textParse
    simp only [if_true]
    exact csvGo_strBytes t .startRecord [] []
  · rename_i h
    have e : textParse s = textGo .startRecord [] [] s := by
      unfold textParse
      cases s with
      | nil => rfl
      | cons c s =>
        simp only
        split
        · rename_i hc
          subst hc
          exact absurd (by rw [strBytes_cons, bom_encode]; rfl) (h (strBytes s))
        · rfl
    rw [e]
    exact csvGo_strBytes s .startRecord [] []

theorem csvStringRecord_strBytes (r : List Str) : csvStringRecord (r.map strBytes) = .ok r := by
  unfold csvStringRecord
  induction r with
  | nil => rfl
  | cons f r ih =>
    rw [List.map_cons, List.mapM_cons, strFromUtf8_strBytes, ih]
    rfl

theorem csv_items (rs : List (List Str)) (h : ∀ r ∈ rs, r ≠ []) (acc : List Item) :
    (rs.map (·.map strBytes)).foldlM (fun items record => do
      let record ← csvStringRecord record
      return items ++ (← csvRecordItems record)) acc =
      .ok (acc ++ rs.flatMap rowItems) := by
  induction rs generalizing acc with
  | nil => simp
  | cons r rs ih =>
    rw [List.map_cons, List.foldlM_cons, csvStringRecord_strBytes, Outcome.ok_bind,
      csvRecordItems_eq (h r (by simp))]
    refine (ih (fun r hr => h r (by simp [hr])) _).trans ?_
    simp

theorem tableFromCsv_eq (w : World) (path : OsStr) (s : Str) (h : w.entry path = some (.text s)) :
    tableFromCsvPath w path =
      .ok (Table.fromCorr ((textParse s).tail.flatMap rowItems) (.configurationFile path)) := by
  unfold tableFromCsvPath
  simp only [h]
  rw [csvRecords, csvParse_strBytes, ← List.map_tail, csv_items]
  · simp only [Outcome.ok_bind, List.nil_append]; rfl
  · intro r hr
    exact textGo_ne_nil _ _ _ _ r (List.mem_of_mem_tail hr)

/-! ## Every text has records -/

theorem plain_split (s : Str) : ∃ g rest, s = g ++ rest ∧ Plain g ∧ FieldEnd rest := by
  induction s with
  | nil => exact ⟨[], [], rfl, by simp [Plain], trivial⟩
  | cons c s ih =>
    by_cases h : c = ',' ∨ c = '\r' ∨ c = '\n'
    · exact ⟨[], c :: s, rfl, by simp [Plain], h⟩
    · obtain ⟨g, rest, rfl, hg, hr⟩ := ih
      simp only [not_or] at h
      refine ⟨c :: g, rest, rfl, ?_, hr⟩
      intro d hd
      rcases List.mem_cons.mp hd with rfl | hd
      · exact h
      · exact hg d hd

theorem quote_split : ∀ (n : Nat) (s : Str), s.length ≤ n →
    (∃ f rest, s = doubleQuotes f ++ '"' :: rest ∧ rest.head? ≠ some '"') ∨ ∃ f, s = doubleQuotes f
  | _, [], _ => .inr ⟨[], rfl⟩
  | 0, c :: s, h => by simp at h
  | n + 1, c :: s, h => by
    by_cases hc : c = '"'
    · subst hc
      match s with
      | [] => exact .inl ⟨[], [], rfl, by simp⟩
      | d :: s =>
        by_cases hd : d = '"'
        · subst hd
          simp only [List.length_cons] at h
          rcases quote_split n s (by omega) with ⟨f, rest, rfl, hr⟩ | ⟨f, rfl⟩
          · exact .inl ⟨'"' :: f, rest, by simp [doubleQuotes_cons], hr⟩
          · exact .inr ⟨'"' :: f, by simp [doubleQuotes_cons]⟩
        · exact .inl ⟨[], d :: s, rfl, by simpa using hd⟩
    · simp only [List.length_cons] at h
      rcases quote_split n s (by omega) with ⟨f, rest, rfl, hr⟩ | ⟨f, rfl⟩
      · exact .inl ⟨c :: f, rest, by simp [doubleQuotes_cons, hc], hr⟩
      · exact .inr ⟨c :: f, by simp [doubleQuotes_cons, hc]⟩

theorem field_split (s : Str) :
    (∃ f x rest, s = x ++ rest ∧ FieldText f x ∧ FieldEnd rest) ∨ ∃ f, s = '"' :: doubleQuotes f := by
  by_cases h : s.head? = some '"'
  · cases s with
    | nil => simp at h
    | cons c s =>
      simp at h
      subst h
      rcases quote_split _ s (Nat.le_refl _) with ⟨f, t, rfl, ht⟩ | ⟨f, rfl⟩
      · obtain ⟨g, rest, rfl, hg, hr⟩ := plain_split t
        refine .inl ⟨f ++ g, _, rest, ?_, .quoted f hg ?_, hr⟩
        · simp
        · cases g with
          | nil => simp
          | cons d g => simpa using ht
      · exact .inr ⟨f, rfl⟩
  · obtain ⟨g, rest, rfl, hg, hr⟩ := plain_split s
    refine .inl ⟨g, g, rest, rfl, .bare hg ?_, hr⟩
    cases g with
    | nil => simp
    | cons d g => simpa using h

theorem record_split : ∀ (n : Nat) (s : Str), s.length ≤ n →
    (∃ r x rest, s = x ++ rest ∧ RecordText r x ∧ LineEnd rest) ∨ ∃ r, LastText r s := by
  intro n
  induction n with
  | zero =>
    intro s h
    have : s = [] := by simpa using h
    subst this
    exact .inl ⟨[[]], [], [], rfl, .one (.bare (by simp [Plain]) (by simp)), trivial⟩
  | succ n ih =>
    intro s h
    rcases field_split s with ⟨f, x, rest, rfl, hf, hr⟩ | ⟨f, rfl⟩
    · cases rest with
      | nil => exact .inl ⟨[f], x, [], rfl, .one hf, trivial⟩
      | cons c rest =>
        rcases hr with rfl | hr
        · simp only [List.length_append, List.length_cons] at h
          rcases ih rest (by omega) with ⟨r, y, rest', rfl, hr, hl⟩ | ⟨r, hr⟩
          · exact .inl ⟨f :: r, x ++ ',' :: y, rest', by simp, .cons hf hr, hl⟩
          · exact .inr ⟨f :: r, .cons hf hr⟩
        · exact .inl ⟨[f], x, c :: rest, rfl, .one hf, hr⟩
    · exact .inr ⟨[f], .unclosed f⟩

theorem csvText_total : ∀ (n : Nat) (s : Str), s.length ≤ n → ∃ rs, CsvText rs s := by
  intro n
  induction n with
  | zero =>
    intro s h
    have : s = [] := by simpa using h
    subst this
    exact ⟨[], .nil⟩
  | succ n ih =>
    intro s h
    cases s with
    | nil => exact ⟨[], .nil⟩
    | cons c s =>
      by_cases hc : c = '\r' ∨ c = '\n'
      · obtain ⟨rs, hrs⟩ := ih s (by simpa using h)
        refine ⟨rs, .empty (e := [c]) ?_ hrs⟩
        rcases hc with rfl | rfl <;> decide
      · rcases record_split _ (c :: s) (Nat.le_refl _) with ⟨r, x, rest, he, hr, hl⟩ | ⟨r, hr⟩
        · have hx : x ≠ [] := by
            rintro rfl
            simp only [List.nil_append] at he
            subst he
            exact hc hl
          cases rest with
          | nil => exact ⟨[r], .last (.closed (by rwa [he, List.append_nil])) (by simp)⟩
          | cons d rest =>
            have hlen : rest.length ≤ n := by
              have := congrArg List.length he
              simp only [List.length_cons, List.length_append] at this h
              omega
            obtain ⟨rs, hrs⟩ := ih rest hlen
            refine ⟨r :: rs, ?_⟩
            rw [he]
            have := CsvText.record (e := [d]) hr hx (by rcases hl with rfl | rfl <;> decide) hrs
            simpa using this
        · exact ⟨[r], .last hr (by simp)⟩

theorem textGo_csvText (s : Str) : CsvText (textGo .startRecord [] [] s) s := by
  obtain ⟨rs, h⟩ := csvText_total _ s (Nat.le_refl _)
  rw [csv_text h]; exact h

/-! ## Arbitrary contents -/

theorem map_inj_of {α β : Type} {f : α → β} (hf : ∀ x y, f x = f y → x = y) :
    ∀ {a b : List α}, a.map f = b.map f → a = b
  | [], [], _ => rfl
  | [], _ :: _, h => by simp at h
  | _ :: _, [], h => by simp at h
  | x :: a, y :: b, h => by
    simp only [List.map_cons, List.cons.injEq] at h
    rw [hf _ _ h.1, map_inj_of hf h.2]

theorem toNat_latin1 (b : UInt8) : (Char.ofNat b.toNat).toNat = b.toNat := by
  have hz := b.toNat_lt
  have hv : b.toNat.isValidChar := .inl (by omega)
  unfold Char.ofNat
  rw [dif_pos hv]
  simp [Char.toNat, Char.ofNatAux]

theorem latin1_inj {a b : List UInt8} (h : latin1 a = latin1 b) : a = b := by
  unfold latin1 at h
  induction a generalizing b with
  | nil => cases b <;> simp_all
  | cons x a ih =>
    cases b with
    | nil => simp at h
    | cons y b =>
      simp only [List.map_cons, List.cons.injEq] at h
      have hx := x.toNat_lt
      have hy := y.toNat_lt
      have := congrArg Char.toNat h.1
      rw [toNat_latin1, toNat_latin1] at this
      rw [UInt8.toNat_inj.mp this, ih h.2]

theorem latin1_char_eq (b : UInt8) (d : Char) (hd : d.toNat < 256) :
    Char.ofNat b.toNat = d ↔ b = UInt8.ofNat d.toNat := by
  constructor
  · rintro rfl
    rw [toNat_latin1]
    simp
  · rintro rfl
    rw [toNat_ofNat8 hd, ofNat_toNat_char]

theorem csvGo_latin1 (b : List UInt8) (st : CsvState) (cur : List UInt8) (fields : List (List UInt8)) :
    textGo st (latin1 cur) (fields.map latin1) (latin1 b) =
      (csvGo st cur fields b).map (·.map latin1) := by
  induction b generalizing st cur fields with
  | nil => cases st <;> simp [csvGo, textGo, latin1]
  | cons x b ih =>
    have ih0 : ∀ (st : CsvState) (fields : List (List UInt8)),
        textGo st [] (fields.map latin1) (latin1 b) = (csvGo st [] fields b).map (·.map latin1) :=
      fun st fields => ih st [] fields
    have ih00 : ∀ (st : CsvState),
        textGo st [] [] (latin1 b) = (csvGo st [] [] b).map (·.map latin1) :=
      fun st => ih st [] []
    have ihs : ∀ (st : CsvState) (cur : List UInt8) (fields : List (List UInt8)),
        textGo st [] (fields.map latin1 ++ [latin1 cur]) (latin1 b) =
          (csvGo st [] (fields ++ [cur]) b).map (·.map latin1) := by
      intro st cur fields
      have := ih st [] (fields ++ [cur])
      simpa [show latin1 [] = [] from rfl] using this
    have ihe : ∀ (st : CsvState) (fields : List (List UInt8)),
        textGo st [] (fields.map latin1 ++ [[]]) (latin1 b) =
          (csvGo st [] (fields ++ [[]]) b).map (·.map latin1) :=
      fun st fields => ihs st [] fields
    have ihe1 : ∀ (st : CsvState),
        textGo st [] [[]] (latin1 b) = (csvGo st [] [[]] b).map (·.map latin1) :=
      fun st => ihs st [] []
    have ihc : ∀ (st : CsvState) (cur : List UInt8) (fields : List (List UInt8)),
        textGo st (latin1 cur ++ [Char.ofNat x.toNat]) (fields.map latin1) (latin1 b) =
          (csvGo st (cur ++ [x]) fields b).map (·.map latin1) := by
      intro st cur fields
      have := ih st (cur ++ [x]) fields
      simpa [latin1] using this
    have ihc0 : ∀ (st : CsvState) (fields : List (List UInt8)),
        textGo st [Char.ofNat x.toNat] (fields.map latin1) (latin1 b) =
          (csvGo st [x] fields b).map (·.map latin1) :=
      fun st fields => ihc st [] fields
    have ihc00 : ∀ (st : CsvState),
        textGo st [Char.ofNat x.toNat] [] (latin1 b) = (csvGo st [x] [] b).map (·.map latin1) :=
      fun st => ihc st [] []
    have e1 := latin1_char_eq x '"' (by decide)
    have e2 := latin1_char_eq x ',' (by decide)
    have e3 := latin1_char_eq x '\r' (by decide)
    have e4 := latin1_char_eq x '\n' (by decide)
    rw [show UInt8.ofNat ('"' : Char).toNat = 0x22 from by decide] at e1
    rw [show UInt8.ofNat (',' : Char).toNat = 0x2C from by decide] at e2
    rw [show UInt8.ofNat ('\r' : Char).toNat = 0x0D from by decide] at e3
    rw [show UInt8.ofNat ('\n' : Char).toNat = 0x0A from by decide] at e4
    have hcons : latin1 (x :: b) = Char.ofNat x.toNat :: latin1 b := rfl
    rw [hcons]
    cases st <;> rw [csvGo, textGo] <;> simp only [e1, e2, e3, e4] <;> (repeat' split) <;>
      first
        | exact ih00 _
        | exact ih0 _ _
        | exact ihe1 _
        | exact ihe _ _
        | exact ihs _ _ _
        | exact ihc _ _ _
        | exact ihc0 _ _
        | exact ihc00 _
        | exact ih _ _ _
        | (rw [ih00]; simp [latin1])

theorem csvFile_parse (b : List UInt8) : CsvFile b (csvParse b) := by
  have key : ∀ body, CsvText ((csvGo .startRecord [] [] body).map (·.map latin1)) (latin1 body) := by
    intro body
    have := csvGo_latin1 body .startRecord [] []
    rw [← this]
    exact textGo_csvText _
  unfold csvParse
  split
  · rename_i bs
    exact ⟨bs, .inl rfl, key bs⟩
  · rename_i h
    refine ⟨b, .inr ⟨rfl, ?_⟩, key b⟩
    rintro ⟨t, rfl⟩
    exact h t rfl

theorem map_latin1_inj {a b : List (List (List UInt8))}
    (h : a.map (·.map latin1) = b.map (·.map latin1)) : a = b := by
  have inj1 : ∀ {a b : List (List UInt8)}, a.map latin1 = b.map latin1 → a = b := by
    intro a b h
    exact map_inj_of (fun _ _ => latin1_inj) h
  exact map_inj_of (fun _ _ => inj1) h

theorem csvFile_unique {b : List UInt8} {records : List (List (List UInt8))} (h : CsvFile b records) :
    records = csvParse b := by
  obtain ⟨body, hb, ht⟩ := h
  have hgo : records = csvGo .startRecord [] [] body := by
    apply map_latin1_inj
    have := csvGo_latin1 body .startRecord [] []
    rw [← this]
    exact (csv_text ht).symm
  rw [hgo]
  unfold csvParse
  rcases hb with rfl | ⟨rfl, hn⟩
  · rfl
  · split
    · rename_i bs
      exact absurd ⟨bs, rfl⟩ hn
    · rfl

theorem csvStringRecord_cases (r : List (List UInt8)) :
    (∃ s : List Str, s.map strBytes = r ∧ csvStringRecord r = .ok s) ∨
    ((¬ ∃ s : List Str, s.map strBytes = r) ∧ csvStringRecord r = .err .csvFileLoad) := by
  unfold csvStringRecord
  induction r with
  | nil => exact .inl ⟨[], rfl, rfl⟩
  | cons f r ih =>
    rw [List.mapM_cons]
    cases hf : strFromUtf8 f with
    | none =>
      refine .inr ⟨?_, rfl⟩
      rintro ⟨s, hs⟩
      cases s with
      | nil => simp at hs
      | cons t s =>
        simp only [List.map_cons, List.cons.injEq] at hs
        rw [← hs.1, strFromUtf8_strBytes] at hf
        simp at hf
    | some t =>
      have ht := (strFromUtf8_eq_some_iff f t).mp hf
      rcases ih with ⟨s, hs, he⟩ | ⟨hs, he⟩
      · exact .inl ⟨t :: s, by simp [ht, hs], by rw [he]; rfl⟩
      · refine .inr ⟨?_, by rw [he]; rfl⟩
        rintro ⟨s, h⟩
        cases s with
        | nil => simp at h
        | cons u s =>
          simp only [List.map_cons, List.cons.injEq] at h
          exact hs ⟨s, h.2⟩

theorem csvLoop_cases (rs : List (List (List UInt8))) (hne : ∀ r ∈ rs, r ≠ []) (acc : List Item) :
    (∃ rows : List (List Str), rows.map (·.map strBytes) = rs ∧
      rs.foldlM (fun items record => do
        let record ← csvStringRecord record
        return items ++ (← csvRecordItems record)) acc = .ok (acc ++ rows.flatMap rowItems)) ∨
    ((¬ ∃ rows : List (List Str), rows.map (·.map strBytes) = rs) ∧
      rs.foldlM (fun items record => do
        let record ← csvStringRecord record
        return items ++ (← csvRecordItems record)) acc = .err .csvFileLoad) := by
  induction rs generalizing acc with
  | nil => exact .inl ⟨[], rfl, by simp⟩
  | cons r rs ih =>
    rw [List.foldlM_cons]
    rcases csvStringRecord_cases r with ⟨s, hs, he⟩ | ⟨hs, he⟩
    · have hs' : s ≠ [] := by
        rintro rfl
        exact hne r (by simp) (by rw [← hs]; rfl)
      rw [he, Outcome.ok_bind, csvRecordItems_eq hs', Outcome.ok_bind]
      rcases ih (fun r hr => hne r (by simp [hr])) (acc ++ rowItems s) with ⟨rows, hr, hrow⟩ | ⟨hr, hrow⟩
      · refine .inl ⟨s :: rows, by simp [hs, hr], ?_⟩
        refine Eq.trans hrow ?_
        simp
      · refine .inr ⟨?_, hrow⟩
        rintro ⟨rows, h⟩
        cases rows with
        | nil => simp at h
        | cons u rows =>
          simp only [List.map_cons, List.cons.injEq] at h
          exact hr ⟨rows, h.2⟩
    · refine .inr ⟨?_, by rw [he]; rfl⟩
      rintro ⟨rows, h⟩
      cases rows with
      | nil => simp at h
      | cons u rows =>
        simp only [List.map_cons, List.cons.injEq] at h
        exact hs ⟨u, h.1⟩

theorem csvGo_ne_nil (st : CsvState) (cur : List UInt8) (fields : List (List UInt8)) (s : List UInt8) :
    ∀ r ∈ csvGo st cur fields s, r ≠ [] := by
  induction s generalizing st cur fields with
  | nil => cases st <;> simp [csvGo]
  | cons c s ih =>
    cases st <;> rw [csvGo] <;> (repeat' split) <;>
      (first | exact ih _ _ _ |
        (intro r hr; rcases List.mem_cons.mp hr with rfl | hr
         · simp
         · exact ih _ _ _ r hr))

/-- Loading a file with any contents. -/
theorem tableFromCsv_cases (w : World) (path : OsStr) (b : List UInt8) (h : w.entry path = some (.file b)) :
    (∃ rows, CsvRows b rows ∧ tableFromCsvPath w path =
      .ok (Table.fromCorr (rows.flatMap rowItems) (.configurationFile path))) ∨
    ((¬ ∃ rows, CsvRows b rows) ∧ tableFromCsvPath w path = .err .csvFileLoad) := by
  unfold tableFromCsvPath
  simp only [h]
  rcases csvLoop_cases (csvRecords b) (fun r hr => csvGo_ne_nil _ _ _ _ r (List.mem_of_mem_tail hr)) []
    with ⟨rows, hr, he⟩ | ⟨hr, he⟩
  · refine .inl ⟨rows, ⟨_, csvFile_parse b, hr⟩, ?_⟩
    rw [he]; rfl
  · refine .inr ⟨?_, by rw [he]; rfl⟩
    rintro ⟨rows, records, hf, hrows⟩
    rw [csvFile_unique hf] at hrows
    exact hr ⟨rows, hrows⟩

theorem CsvRows.unique {b : List UInt8} {rows rows' : List (List Str)} (h : CsvRows b rows)
    (h' : CsvRows b rows') : rows = rows' := by
  obtain ⟨r, hf, hr⟩ := h
  obtain ⟨r', hf', hr'⟩ := h'
  rw [csvFile_unique hf] at hr
  rw [csvFile_unique hf', ← hr] at hr'
  have inj1 : ∀ {a b : List Str}, a.map strBytes = b.map strBytes → a = b := by
    intro a b h
    exact map_inj_of (fun _ _ => strBytes_inj) h
  exact (map_inj_of (fun _ _ => inj1) hr').symm

theorem CsvRows.of_text (s : Str) : CsvRows (strBytes s) (textParse s).tail :=
  ⟨_, csvFile_parse _, by rw [csvParse_strBytes, List.map_tail]⟩

/-! ## Writing -/

theorem csvWriteField_text (f : Str) : FieldText f (csvWriteField f) := by
  unfold csvWriteField
  split
  · have := FieldText.quoted f (g := []) (by simp [Plain]) (by simp)
    simpa [doubleQuotes] using this
  · rename_i h
    simp only [csvNeedsQuotes, List.any_eq_true, not_exists, not_and, Bool.or_eq_true, beq_iff_eq,
      not_or] at h
    refine .bare (fun c hc => ?_) ?_
    · obtain ⟨⟨⟨h1, h2⟩, h3⟩, h4⟩ := h c hc
      exact ⟨h1, h3, h4⟩
    · intro hh
      cases f with
      | nil => simp at hh
      | cons d f => simp at hh; subst hh; exact (h '"' (by simp)).1.1.2 rfl

theorem csvWriteBody_text (r : List Str) (h : r ≠ []) :
    RecordText r (((r.map csvWriteField).intersperse [',']).flatten) := by
  induction r with
  | nil => exact absurd rfl h
  | cons f r ih =>
    cases r with
    | nil => simpa using RecordText.one (csvWriteField_text f)
    | cons g r =>
      have := RecordText.cons (csvWriteField_text f) (ih (by simp))
      simpa using this

theorem csvWriteBody_ne {r : List Str} (h : 2 ≤ r.length) :
    ((r.map csvWriteField).intersperse [',']).flatten ≠ [] := by
  match r, h with
  | f :: g :: r, _ => simp

/-- What the writer writes is a CSV text of the records. -/
theorem csvWrite_text (rs : List (List Str)) (h : ∀ r ∈ rs, 2 ≤ r.length) :
    CsvText rs (rs.flatMap csvWriteRecord) := by
  induction rs with
  | nil => exact .nil
  | cons r rs ih =>
    have hr := h r (by simp)
    rw [List.flatMap_cons]
    have hne := csvWriteBody_ne hr
    have : csvWriteRecord r = ((r.map csvWriteField).intersperse [',']).flatten ++ ['\n'] := by
      unfold csvWriteRecord
      simp only
      rw [if_neg (by simpa using hne)]
    rw [this]
    refine .record (csvWriteBody_text r ?_) hne (by simp [lineEnds]) (ih fun r hr => h r (by simp [hr]))
    rintro rfl
    simp at hr

/-- The records that are exported. -/
def exportRecords (items : List Item) : List (List Str) :=
  (itemMap items).map fun e => e.2 ++ [e.1]

theorem exportRecords_len (items : List Item) : ∀ r ∈ exportRecords items, 2 ≤ r.length := by
  intro r hr
  simp only [exportRecords, List.mem_map] at hr
  obtain ⟨⟨k, vs⟩, he, rfl⟩ := hr
  have := List.length_pos_iff.mpr (mem_itemMap.mp he).1
  simp; omega

theorem toCsvWriter_eq (items : List Item) :
    toCsvWriter items = (exportRecords items).flatMap csvWriteRecord := by
  unfold toCsvWriter exportRecords
  generalize itemMap items = m
  suffices ∀ acc : Str, m.foldl (fun out e => out ++ csvWriteRecord (e.2 ++ [e.1])) acc =
      acc ++ (m.map fun e => e.2 ++ [e.1]).flatMap csvWriteRecord by simpa using this []
  induction m with
  | nil => simp
  | cons e m ih => intro acc; rw [List.foldl_cons, ih]; simp

theorem toCsvWriter_text (items : List Item) :
    CsvText (exportRecords items) (toCsvWriter items) := by
  rw [toCsvWriter_eq]; exact csvWrite_text _ (exportRecords_len items)

/-- Reading an exported text: the first record may lose a byte order mark, the others come back. -/
theorem textParse_export_tail {rs : List (List Str)} (h : ∀ r ∈ rs, 2 ≤ r.length) (suffix : Str)
    (hs : CsvText [] suffix) :
    (textParse (rs.flatMap csvWriteRecord ++ suffix)).tail = rs.tail := by
  have happ : ∀ rs : List (List Str), (∀ r ∈ rs, 2 ≤ r.length) →
      CsvText rs (rs.flatMap csvWriteRecord ++ suffix) := by
    intro rs
    induction rs with
    | nil => intro _; exact hs
    | cons r rs ih =>
      intro h
      have hr := h r (by simp)
      have hne := csvWriteBody_ne hr
      have : csvWriteRecord r = ((r.map csvWriteField).intersperse [',']).flatten ++ ['\n'] := by
        unfold csvWriteRecord
        simp only
        rw [if_neg (by simpa using hne)]
      rw [List.flatMap_cons, this, List.append_assoc]
      refine .record (csvWriteBody_text r ?_) hne (by simp [lineEnds]) (ih fun r hr => h r (by simp [hr]))
      rintro rfl
      simp at hr
  by_cases hb : (rs.flatMap csvWriteRecord ++ suffix).head? = some '﻿'
  · -- the first field starts with a byte order mark and is therefore not quoted
    match rs, h, hb with
    | [], h, hb =>
      exfalso
      simp only [List.flatMap_nil, List.nil_append] at hb
      cases hs with
      | nil => simp at hb
      | empty he _ =>
        simp [lineEnds] at he
        rcases he with rfl | rfl | rfl <;> simp at hb
    | (f :: g :: r) :: rs, h, hb =>
      have e1 : (((f :: g :: r) :: rs).flatMap csvWriteRecord ++ suffix) =
          csvWriteField f ++ (',' :: (((g :: r).map csvWriteField).intersperse [',']).flatten ++ ['\n'] ++
            (rs.flatMap csvWriteRecord ++ suffix)) := by
        simp [csvWriteRecord]
      rw [e1] at hb ⊢
      by_cases hq : csvNeedsQuotes f = true
      · simp [csvWriteField, hq] at hb
      · have hf : csvWriteField f = f := by simp [csvWriteField, hq]
        rw [hf] at hb ⊢
        cases f with
        | nil => simp at hb
        | cons c f =>
          simp at hb
          subst hb
          have hrest : CsvText ((f :: g :: r) :: rs)
              ((f ++ ',' :: (((g :: r).map csvWriteField).intersperse [',']).flatten) ++ ['\n'] ++
                (rs.flatMap csvWriteRecord ++ suffix)) := by
            refine .record (.cons ?_ (csvWriteBody_text (g :: r) (by simp))) (by simp) (by simp [lineEnds])
              (happ rs fun r hr => h r (by simp [hr]))
            have hq' : csvNeedsQuotes f = false := by
              simp only [csvNeedsQuotes, List.any_cons, Bool.or_eq_true, not_or] at hq
              simpa [csvNeedsQuotes] using hq.2
            have := csvWriteField_text f
            rwa [csvWriteField, hq', if_neg (by simp)] at this
          have := textParse_bom hrest
          simp only [List.cons_append, List.append_assoc] at this ⊢
          rw [this]; rfl
    | [] :: rs, h, hb => have := h [] (by simp); simp at this
    | [f] :: rs, h, hb => have := h [f] (by simp); simp at this
  · rw [textParse_text (happ rs h) hb]

end Chanoma
