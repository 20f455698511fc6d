import Verif.Spec.Swap
import Verif.Proofs.Config
import Verif.Props.Text
/-! # Lemmas about exchanging modifiers -/

namespace Chanoma

/-- What a simple modifier does, as a function. -/
def Step.act : Step → Str → Str
  | .convert l, t => t.map (image l)
  | .eliminate cs, t => t.filter fun c => c ∉ cs
  | .reduce c, t => squeeze c t
  | .spaces, t => dGo false false t
  | .trim, t => trimModify t
  | _, t => t

theorem act_makes {s : Step} (h : s.Simple) {t o : Str} (hm : s.Makes t o) : o = s.act t := by
  cases s with
  | convert l => exact hm
  | eliminate l => exact hm
  | reduce c => exact hm
  | ligature l => exact h.elim
  | spaces => rw [show o = spaceRule t from hm, ← dotted_eq, dotted_eq_dGo]; rfl
  | trim =>
    obtain ⟨h1, h2, a, b, h3⟩ := hm
    obtain ⟨a', b', h3', h1', h2'⟩ := trim_eq t
    exact trim_unique (h3.symm.trans h3') h1 h2 h1' h2'
  | neologdn => exact h.elim

/-! ## The converter -/

theorem map_filter_comm {f : Char → Char} {cs : List Char} (h : ∀ c, f c ∈ cs ↔ c ∈ cs) (t : Str) :
    (t.map f).filter (fun c => c ∉ cs) = (t.filter fun c => c ∉ cs).map f := by
  rw [List.filter_map]
  congr 2
  funext c
  simp [h]

theorem map_squeeze_comm {f : Char → Char} {d : Char} (h : ∀ c, f c = d ↔ c = d) (t : Str) :
    squeeze d (t.map f) = (squeeze d t).map f := by
  induction t with
  | nil => rfl
  | cons a t ih =>
    have e : (t.map f).head? = some d ↔ t.head? = some d := by
      cases t with
      | nil => simp
      | cons b t => simp [h]
    simp only [List.map_cons, squeeze, h, e]
    split
    · exact ih
    · rw [List.map_cons, ih]

theorem map_trim_comm {f : Char → Char} (h : ∀ c, f c = ' ' ↔ c = ' ') (t : Str) :
    trimModify (t.map f) = (trimModify t).map f := by
  obtain ⟨a, b, h3, h1, h2⟩ := trim_eq t
  obtain ⟨a', b', h3', h1', h2'⟩ := trim_eq (t.map f)
  have e : t.map f = List.replicate a ' ' ++ (trimModify t).map f ++ List.replicate b ' ' := by
    conv => lhs; rw [h3]
    simp [(h ' ').2 rfl]
  refine trim_unique (h3'.symm.trans e) h1' h2' ?_ ?_
  · rw [List.head?_map]
    cases hh : (trimModify t).head? with
    | none => simp
    | some c =>
      rw [hh] at h1
      simpa [h] using h1
  · rw [List.getLast?_map]
    cases hh : (trimModify t).getLast? with
    | none => simp
    | some c =>
      rw [hh] at h2
      simpa [h] using h2

theorem map_dGo_comm {f : Char → Char} (h : ∀ c, f c = ' ' ↔ c = ' ')
    (ha : ∀ c, isAsciiAlphanumeric (f c) = isAsciiAlphanumeric c) (t : Str) (p sp : Bool) :
    dGo p sp (t.map f) = (dGo p sp t).map f := by
  induction t generalizing p sp with
  | nil => rfl
  | cons a t ih =>
    simp only [List.map_cons, dGo, h, ha]
    split
    · exact ih _ _
    · rw [List.map_append, List.map_cons, ih]
      congr 1
      split
      · simp [(h ' ').2 rfl]
      · rfl

/-! ## The eliminator -/

theorem filter_squeeze {d : Char} {cs : List Char} (h : d ∈ cs) (t : Str) :
    (squeeze d t).filter (fun c => c ∉ cs) = t.filter fun c => c ∉ cs := by
  induction t with
  | nil => rfl
  | cons a t ih =>
    unfold squeeze
    split
    · rename_i hh
      rw [ih, List.filter_cons_of_neg]
      simp [hh.1, h]
    · simp only [List.filter_cons, ih]

theorem squeeze_filter {d : Char} {cs : List Char} (h : d ∈ cs) (t : Str) :
    squeeze d (t.filter fun c => c ∉ cs) = t.filter fun c => c ∉ cs :=
  squeeze_not_mem (by simp [h])

theorem filter_spaces {cs : List Char} (h : ' ' ∈ cs) (t : Str) :
    t.filter (fun c => c ∉ cs) = (t.filter (· ≠ ' ')).filter fun c => c ∉ cs := by
  rw [List.filter_filter]
  congr 1
  funext c
  by_cases hc : c = ' '
  · simp [hc, h]
  · simp [hc]

theorem filter_trim {cs : List Char} (h : ' ' ∈ cs) (t : Str) :
    (trimModify t).filter (fun c => c ∉ cs) = t.filter fun c => c ∉ cs := by
  obtain ⟨a, b, h3, -, -⟩ := trim_eq t
  conv => rhs; rw [h3]
  have : ∀ k, (List.replicate k ' ').filter (fun c => decide (c ∉ cs)) = [] := by
    intro k
    rw [List.filter_eq_nil_iff]
    intro c hc
    rw [(List.mem_replicate.mp hc).2]
    simp [h]
  simp only [List.filter_append, this, List.nil_append, List.append_nil]

theorem trim_filter {cs : List Char} (h : ' ' ∈ cs) (t : Str) :
    trimModify (t.filter fun c => c ∉ cs) = t.filter fun c => c ∉ cs := by
  obtain ⟨a, b, h3, h1, h2⟩ := trim_eq (t.filter fun c => c ∉ cs)
  have e : t.filter (fun c => c ∉ cs) =
      List.replicate 0 ' ' ++ t.filter (fun c => c ∉ cs) ++ List.replicate 0 ' ' := by simp
  refine trim_unique (h3.symm.trans e) h1 h2 ?_ ?_ <;> intro hh
  · have := List.mem_of_mem_head? hh
    simp [h] at this
  · have := List.mem_of_getLast? hh
    simp [h] at this

theorem filter_dGo {cs : List Char} (h : ' ' ∈ cs) (t : Str) :
    (dGo false false t).filter (fun c => c ∉ cs) = t.filter fun c => c ∉ cs := by
  rw [filter_spaces h, dGo_nonspace, ← filter_spaces h]

theorem dGo_filter {cs : List Char} (h : ' ' ∈ cs) (t : Str) :
    dGo false false (t.filter fun c => c ∉ cs) = t.filter fun c => c ∉ cs := by
  rw [← dotted_eq_dGo]
  refine dotted_fix fun u v e => ?_
  have : ' ' ∈ t.filter (fun c => decide (c ∉ cs)) := by rw [e]; simp
  simp [h] at this

/-! ## The reducer -/

theorem squeeze_comm (c d : Char) (t : Str) : squeeze c (squeeze d t) = squeeze d (squeeze c t) := by
  by_cases hcd : c = d
  · rw [hcd]
  induction t with
  | nil => rfl
  | cons a t ih =>
    by_cases h1 : a = c ∧ t.head? = some c
    · have h2 : ¬ (a = d ∧ t.head? = some d) := fun h => hcd (h1.1.symm.trans h.1)
      rw [squeeze, if_neg h2, squeeze, squeeze_head, if_pos h1]
      conv => rhs; rw [squeeze, if_pos h1]
      exact ih
    · by_cases h2 : a = d ∧ t.head? = some d
      · rw [squeeze, if_pos h2, ih]
        conv => rhs; rw [squeeze, if_neg h1, squeeze, squeeze_head, if_pos h2]
      · conv => lhs; rw [squeeze, if_neg h2, squeeze, squeeze_head, if_neg h1]
        conv => rhs; rw [squeeze, if_neg h1, squeeze, squeeze_head, if_neg h2]
        rw [ih]

theorem squeeze_last (c : Char) (t : Str) : (squeeze c t).getLast? = t.getLast? := by
  induction t with
  | nil => rfl
  | cons a t ih =>
    unfold squeeze
    split
    · rename_i h
      rw [ih]
      cases t with
      | nil => simp at h
      | cons b t => simp [List.getLast?_cons_cons]
    · rw [List.getLast?_cons, List.getLast?_cons, ih]

theorem squeeze_spaces (c : Char) (k : Nat) : ∃ k', squeeze c (List.replicate k ' ') = List.replicate k' ' ' := by
  refine ⟨(squeeze c (List.replicate k ' ')).length, ?_⟩
  rw [List.eq_replicate_iff]
  exact ⟨rfl, fun b hb => (List.mem_replicate.mp (squeeze_mem hb)).2⟩

theorem trim_replicate (k : Nat) : trimModify (List.replicate k ' ') = [] := by
  obtain ⟨a, b, h3, h1, h2⟩ := trim_eq (List.replicate k ' ')
  have e : List.replicate k ' ' = List.replicate k ' ' ++ ([] : Str) ++ List.replicate 0 ' ' := by simp
  exact trim_unique (h3.symm.trans e) h1 h2 (by simp) (by simp)

theorem squeeze_trim_comm (c : Char) (t : Str) :
    trimModify (squeeze c t) = squeeze c (trimModify t) := by
  obtain ⟨a, b, h3, h1, h2⟩ := trim_eq t
  generalize trimModify t = o at *
  subst h3
  by_cases ho : o = []
  · subst ho
    rw [List.append_nil, List.replicate_append_replicate]
    obtain ⟨k, hk⟩ := squeeze_spaces c (a + b)
    rw [hk, trim_replicate]
    rfl
  · have hr : ∀ k, (List.replicate k ' ').getLast? = some c → c = ' ' := by
      intro k h
      exact (List.mem_replicate.mp (List.mem_of_getLast? h)).2
    have hr' : ∀ k, (List.replicate k ' ').head? = some c → c = ' ' := by
      intro k h
      exact (List.mem_replicate.mp (List.mem_of_mem_head? h)).2
    rw [List.append_assoc, squeeze_append c _ _ ?_, squeeze_append c o _ ?_]
    · obtain ⟨k, hk⟩ := squeeze_spaces c a
      obtain ⟨k', hk'⟩ := squeeze_spaces c b
      rw [hk, hk', ← List.append_assoc]
      obtain ⟨a', b', h3', h1', h2'⟩ := trim_eq (List.replicate k ' ' ++ squeeze c o ++ List.replicate k' ' ')
      exact trim_unique h3'.symm h1' h2' (by rw [squeeze_head]; exact h1) (by rw [squeeze_last]; exact h2)
    · rintro ⟨h, h'⟩
      rw [hr' _ h'] at h
      exact h2 h
    · rintro ⟨h, h'⟩
      rw [hr _ h] at h'
      cases o with
      | nil => exact ho rfl
      | cons x o => exact h1 (by simpa using h')

theorem dGo_head {c : Char} (hc : isAsciiAlphanumeric c = true) (t : Str) (sp : Bool)
    (h : (dGo true sp t).head? = some c) : sp = false ∧ t.head? = some c := by
  have hs : c ≠ ' ' := fun e => by rw [e] at hc; revert hc; decide
  induction t generalizing sp with
  | nil => simp [dGo] at h
  | cons a t ih =>
    unfold dGo at h
    split at h
    · exact absurd (ih true h).1 (by simp)
    · cases sp with
      | false => simpa using h
      | true =>
        cases ha : isAsciiAlphanumeric a with
        | true => simp [ha] at h; exact absurd h.symm hs
        | false =>
          simp [ha] at h
          rw [h, hc] at ha; cases ha

theorem squeeze_pos {c : Char} {t : Str} (h : t.head? = some c) : squeeze c (c :: t) = squeeze c t := by
  rw [squeeze, if_pos ⟨rfl, h⟩]

theorem squeeze_neg {a c : Char} {t : Str} (h : ¬ (a = c ∧ t.head? = some c)) :
    squeeze c (a :: t) = a :: squeeze c t := by
  rw [squeeze, if_neg h]

theorem squeeze_dGo_comm {c : Char} (hc : isAsciiAlphanumeric c = true) (t : Str) (p sp : Bool) :
    squeeze c (dGo p sp t) = dGo p sp (squeeze c t) := by
  have hs : c ≠ ' ' := fun e => by rw [e] at hc; revert hc; decide
  have hsep : ∀ (b : Bool) (u : Str), squeeze c ((if b = true then [' '] else []) ++ u) =
      (if b = true then [' '] else []) ++ squeeze c u := by
    intro b u
    cases b
    · rfl
    · simp [squeeze, Ne.symm hs]
  induction t generalizing p sp with
  | nil => rfl
  | cons a t ih =>
    by_cases has : a = ' '
    · subst has
      simp only [dGo, squeeze, Ne.symm hs, false_and, if_false, if_true, ih]
    · rw [dGo, if_neg has, hsep]
      by_cases hac : a = c
      · subst hac
        by_cases hh : t.head? = some a
        · obtain ⟨t', rfl⟩ : ∃ t', t = a :: t' := by
            cases t with
            | nil => simp at hh
            | cons b t => simp at hh; exact ⟨t, by rw [hh]⟩
          have e : (dGo true false (a :: t')).head? = some a := by simp [dGo, has]
          rw [hc, squeeze_pos e, ih, squeeze_pos hh]
          obtain ⟨r, hr⟩ : ∃ r, squeeze a (a :: t') = a :: r := by
            have := squeeze_head a (a :: t')
            cases hq : squeeze a (a :: t') with
            | nil => rw [hq] at this; simp at this
            | cons b r => rw [hq] at this; simp at this; exact ⟨r, by rw [this]⟩
          rw [hr]
          simp [dGo, has, hc]
        · have e : (dGo true false t).head? ≠ some a := fun h => hh (dGo_head hc t false h).2
          rw [hc, squeeze_neg (fun h => e h.2), ih, squeeze_neg (fun h => hh h.2), dGo, if_neg has, hc]
      · rw [squeeze_neg (fun h => hac h.1), ih, squeeze_neg (fun h => hac h.1), dGo, if_neg has]

end Chanoma
