import Verif.Spec.Ligature
/-! # Lemmas: functions on texts computed by machines with finitely many states

A machine reads the text once from left to right.  It may guess; what it guesses has to turn out
right at the end.  Two functions computed by machines are equal if they agree on short texts. -/

namespace Chanoma

structure Machine where
  St : Type
  all : List St
  complete : ∀ s, s ∈ all
  start : St → Str → Prop
  step : St → Char → St → Str → Prop
  stop : St → Str → Prop

inductive Machine.Run (M : Machine) : M.St → Str → M.St → Str → Prop
  | nil (s : M.St) : Run M s [] s []
  | cons {s s' s'' : M.St} {c : Char} {t o o' : Str} : M.step s c s' o → Run M s' t s'' o' →
      Run M s (c :: t) s'' (o ++ o')

namespace Machine

theorem Run.append {M : Machine} {s s' s'' : M.St} {t t' o o' : Str} (h : M.Run s t s' o)
    (h' : M.Run s' t' s'' o') : M.Run s (t ++ t') s'' (o ++ o') := by
  induction h with
  | nil => exact h'
  | cons h1 _ ih => rw [List.append_assoc, List.cons_append]; exact .cons h1 (ih h')

theorem Run.nil_inv {M : Machine} {s s' : M.St} {o : Str} (h : M.Run s [] s' o) : s = s' ∧ o = [] := by
  cases h; exact ⟨rfl, rfl⟩

theorem Run.cons_inv {M : Machine} {s s' : M.St} {c : Char} {t o : Str} (h : M.Run s (c :: t) s' o) :
    ∃ m o1 o2, M.step s c m o1 ∧ M.Run m t s' o2 ∧ o = o1 ++ o2 := by
  cases h with
  | cons h1 h2 => exact ⟨_, _, _, h1, h2, rfl⟩

theorem Run.split {M : Machine} {s s'' : M.St} {t t' o : Str} (h : M.Run s (t ++ t') s'' o) :
    ∃ s' o1 o2, M.Run s t s' o1 ∧ M.Run s' t' s'' o2 ∧ o = o1 ++ o2 := by
  induction t generalizing s o with
  | nil => exact ⟨s, [], o, .nil s, h, rfl⟩
  | cons c t ih =>
    rw [List.cons_append] at h
    cases h with
    | cons h1 h2 =>
      obtain ⟨s', o1, o2, h3, h4, e⟩ := ih h2
      exact ⟨s', _, o2, .cons h1 h3, h4, by rw [e, List.append_assoc]⟩

/-- The machine accepts `t` with output `o`. -/
def Accepts (M : Machine) (t o : Str) : Prop :=
  ∃ s o1 s' o2 o3, M.start s o1 ∧ M.Run s t s' o2 ∧ M.stop s' o3 ∧ o = o1 ++ o2 ++ o3

def Computes (M : Machine) (f : Str → Str) : Prop := ∀ t o, M.Accepts t o ↔ o = f t

/-- First `M`, then `N` on the output of `M`. -/
def comp (M N : Machine) : Machine where
  St := M.St × N.St
  all := M.all.flatMap fun p => N.all.map fun q => (p, q)
  complete := fun s => by
    simp only [List.mem_flatMap, List.mem_map]
    exact ⟨s.1, M.complete _, s.2, N.complete _, rfl⟩
  start := fun s o => ∃ w q o1 o2, M.start s.1 w ∧ N.start q o1 ∧ N.Run q w s.2 o2 ∧ o = o1 ++ o2
  step := fun s c s' o => ∃ w, M.step s.1 c s'.1 w ∧ N.Run s.2 w s'.2 o
  stop := fun s o => ∃ w q o1 o2, M.stop s.1 w ∧ N.Run s.2 w q o1 ∧ N.stop q o2 ∧ o = o1 ++ o2

theorem comp_length (M N : Machine) : (M.comp N).all.length = M.all.length * N.all.length := by
  show (M.all.flatMap fun p => N.all.map fun q => (p, q)).length = _
  induction M.all with
  | nil => simp
  | cons a l ih => simp only [List.flatMap_cons, List.length_append, ih, List.length_map, List.length_cons,
      Nat.add_mul, Nat.one_mul, Nat.add_comm]

theorem comp_run {M N : Machine} {t : Str} : ∀ {s s' : (M.comp N).St} {o : Str},
    (M.comp N).Run s t s' o ↔ ∃ w, M.Run s.1 t s'.1 w ∧ N.Run s.2 w s'.2 o := by
  induction t with
  | nil =>
    intro s s' o
    constructor
    · intro h
      cases h
      exact ⟨[], .nil _, .nil _⟩
    · rintro ⟨w, h1, h2⟩
      obtain ⟨p, q⟩ := s
      obtain ⟨p', q'⟩ := s'
      simp only at h1 h2
      cases h1
      cases h2
      exact .nil (M := M.comp N) (p, q)
  | cons c t ih =>
    intro s s' o
    constructor
    · intro h
      cases h with
      | cons h1 h2 =>
        obtain ⟨w, h3, h4⟩ := h1
        obtain ⟨w', h5, h6⟩ := ih.1 h2
        exact ⟨w ++ w', .cons h3 h5, h4.append h6⟩
    · rintro ⟨w, h1, h2⟩
      cases h1 with
      | cons h3 h5 =>
        obtain ⟨m, o1, o2, h4, h6, e⟩ := h2.split
        rw [e]
        exact .cons (M := M.comp N) (s' := (_, m)) ⟨_, h3, h4⟩ (ih.2 ⟨_, h5, h6⟩)

theorem comp_computes {M N : Machine} {f g : Str → Str} (hf : M.Computes f) (hg : N.Computes g) :
    (M.comp N).Computes (fun t => g (f t)) := by
  intro t o
  rw [← hg (f t) o]
  constructor
  · rintro ⟨s, o1, s', o2, o3, ⟨w, q, p1, p2, a1, a2, a3, rfl⟩, h2, ⟨w', q', p3, p4, a4, a5, a6, rfl⟩, rfl⟩
    obtain ⟨v, b1, b2⟩ := comp_run.1 h2
    have : w ++ v ++ w' = f t := (hf t _).1 ⟨_, _, _, _, _, a1, b1, a4, rfl⟩
    rw [← this]
    exact ⟨q, p1, q', p2 ++ o2 ++ p3, p4, a2, (a3.append b2).append a5, a6, by simp⟩
  · rintro ⟨q, p1, q', r, p4, a2, h, a6, rfl⟩
    obtain ⟨s, w, s', v, w', a1, b1, a4, e⟩ := (hf t _).2 rfl
    rw [e] at h
    obtain ⟨m', r1, p3, h1, a5, rfl⟩ := h.split
    obtain ⟨m, p2, o2, a3, b2, rfl⟩ := h1.split
    exact ⟨(s, m), p1 ++ p2, (s', m'), o2, p3 ++ p4, ⟨w, q, p1, p2, a1, a2, a3, rfl⟩,
      comp_run.2 ⟨v, b1, b2⟩, ⟨w', q', p3, p4, a4, a5, a6, rfl⟩, by simp⟩

/-- A joint path of two machines over the same word. -/
def Joint (M N : Machine) : M.St × N.St → List (Char × (M.St × N.St) × Str × Str) → Prop
  | _, [] => True
  | P, (c, S, o, o') :: l => M.step P.1 c S.1 o ∧ N.step P.2 c S.2 o' ∧ Joint M N S l

def final {σ : Type} (P : σ) : List (Char × σ × Str × Str) → σ
  | [] => P
  | e :: l => final e.2.1 l

theorem final_append {σ : Type} (P : σ) (a b : List (Char × σ × Str × Str)) :
    final P (a ++ b) = final (final P a) b := by
  induction a generalizing P with
  | nil => rfl
  | cons e a ih => exact ih _

theorem joint_append {M N : Machine} {P : M.St × N.St} {a b : List (Char × (M.St × N.St) × Str × Str)} :
    Joint M N P (a ++ b) ↔ Joint M N P a ∧ Joint M N (final P a) b := by
  induction a generalizing P with
  | nil => simp [Joint, final]
  | cons e a ih =>
    obtain ⟨c, S, o, o'⟩ := e
    simp only [List.cons_append, Joint, final, ih, and_assoc]

theorem joint_run {M N : Machine} {P : M.St × N.St} {l : List (Char × (M.St × N.St) × Str × Str)}
    (h : Joint M N P l) :
    M.Run P.1 (l.map (·.1)) (final P l).1 (l.flatMap (·.2.2.1)) ∧
    N.Run P.2 (l.map (·.1)) (final P l).2 (l.flatMap (·.2.2.2)) := by
  induction l generalizing P with
  | nil => exact ⟨.nil _, .nil _⟩
  | cons e l ih =>
    obtain ⟨c, S, o, o'⟩ := e
    exact ⟨.cons h.1 (ih h.2.2).1, .cons h.2.1 (ih h.2.2).2⟩

theorem exists_joint {M N : Machine} {p p' : M.St} {q q' : N.St} {t o o' : Str} (h : M.Run p t p' o)
    (h' : N.Run q t q' o') : ∃ l, Joint M N (p, q) l ∧ final (p, q) l = (p', q') ∧ l.map (·.1) = t ∧
      l.flatMap (·.2.2.1) = o ∧ l.flatMap (·.2.2.2) = o' := by
  induction h generalizing q o' with
  | nil => cases h'; exact ⟨[], trivial, rfl, rfl, rfl, rfl⟩
  | cons h1 _ ih =>
    cases h' with
    | cons h2 h3 =>
      obtain ⟨l, a1, a2, a3, a4, a5⟩ := ih h3
      exact ⟨(_, (_, _), _, _) :: l, ⟨h1, h2, a1⟩, a2, by rw [List.map_cons, a3],
        by rw [List.flatMap_cons, a4], by rw [List.flatMap_cons, a5]⟩

/-- A list longer than twice the number of values has three elements with the same value. -/
theorem exists_thrice {β σ : Type} (f : β → σ) (all : List σ) (l : List β) (h : ∀ e ∈ l, f e ∈ all)
    (hl : 2 * all.length < l.length) : ∃ a e1 b e2 c e3 d, l = a ++ e1 :: (b ++ e2 :: (c ++ e3 :: d)) ∧
      f e1 = f e2 ∧ f e2 = f e3 := by
  classical
  have key : ∀ (all : List σ) (l : List β), (∀ e ∈ l, f e ∈ all) → 2 * all.length < l.length →
      ∃ s, 2 < (l.filter fun e => decide (f e = s)).length := by
    intro all
    induction all with
    | nil =>
      intro l h hl
      cases l with
      | nil => simp at hl
      | cons e l => exact absurd (h e (by simp)) (by simp)
    | cons s all ih =>
      intro l h hl
      by_cases hs : 2 < (l.filter fun e => decide (f e = s)).length
      · exact ⟨s, hs⟩
      · have hlen : ∀ l : List β, l.length = (l.filter fun e => decide (f e = s)).length +
            (l.filter fun e => !decide (f e = s)).length := by
          intro l
          induction l with
          | nil => rfl
          | cons e l ih => by_cases he : f e = s <;> simp [he, ih] <;> omega
        obtain ⟨s', h'⟩ := ih (l.filter fun e => !decide (f e = s)) (fun e he => by
          simp only [List.mem_filter, Bool.not_eq_true', decide_eq_false_iff_not] at he
          exact (List.mem_cons.1 (h e he.1)).resolve_left he.2) (by
          have := hlen l
          simp only [List.length_cons] at hl
          omega)
        refine ⟨s', Nat.lt_of_lt_of_le h' ?_⟩
        rw [List.filter_filter]
        exact List.Sublist.length_le (by
          have : (l.filter fun e => decide (f e = s') && !decide (f e = s)) =
              (l.filter fun e => decide (f e = s')).filter fun e => !decide (f e = s) := by
            rw [List.filter_filter]; congr 1; funext e; rw [Bool.and_comm]
          rw [this]
          exact List.filter_sublist)
  have pick : ∀ (s : σ) (l : List β), 0 < (l.filter fun e => decide (f e = s)).length →
      ∃ a e b, l = a ++ e :: b ∧ f e = s ∧
        (l.filter fun e => decide (f e = s)).length = 1 + (b.filter fun e => decide (f e = s)).length := by
    intro s l
    induction l with
    | nil => intro h; simp at h
    | cons e l ih =>
      intro h
      by_cases he : f e = s
      · exact ⟨[], e, l, rfl, he, by simp [he]; omega⟩
      · rw [List.filter_cons_of_neg (by simpa using he)] at h
        obtain ⟨a, e', b, h1, h2, h3⟩ := ih h
        exact ⟨e :: a, e', b, by rw [h1]; rfl, h2, by rw [List.filter_cons_of_neg (by simpa using he), h3]⟩
  obtain ⟨s, hs⟩ := key all l h hl
  obtain ⟨a, e1, b', h1, h2, h3⟩ := pick s l (by omega)
  obtain ⟨b, e2, c', h4, h5, h6⟩ := pick s b' (by omega)
  obtain ⟨c, e3, d, h7, h8, h9⟩ := pick s c' (by omega)
  exact ⟨a, e1, b, e2, c, e3, d, by rw [h1, h4, h7], by rw [h2, h5], by rw [h5, h8]⟩

theorem loops {U U' X X' Y Y' Z Z' : Str} (h0 : U ++ Z = U' ++ Z') (h1 : U ++ X ++ Z = U' ++ X' ++ Z')
    (h2 : U ++ Y ++ Z = U' ++ Y' ++ Z') : U ++ X ++ Y ++ Z = U' ++ X' ++ Y' ++ Z' := by
  have key : ∀ {U D X X' Y Y' Z : Str}, U ++ X ++ (D ++ Z) = U ++ D ++ X' ++ Z →
      U ++ Y ++ (D ++ Z) = U ++ D ++ Y' ++ Z →
      U ++ X ++ Y ++ (D ++ Z) = U ++ D ++ X' ++ Y' ++ Z := by
    intro U D X X' Y Y' Z h1 h2
    have e1 : X ++ D = D ++ X' := by
      have : U ++ (X ++ D) ++ Z = U ++ (D ++ X') ++ Z := by simpa using h1
      exact List.append_cancel_left (List.append_cancel_right this)
    have e2 : Y ++ D = D ++ Y' := by
      have : U ++ (Y ++ D) ++ Z = U ++ (D ++ Y') ++ Z := by simpa using h2
      exact List.append_cancel_left (List.append_cancel_right this)
    calc U ++ X ++ Y ++ (D ++ Z) = U ++ (X ++ (Y ++ D)) ++ Z := by simp
      _ = U ++ (X ++ D ++ Y') ++ Z := by rw [e2]; simp
      _ = U ++ D ++ X' ++ Y' ++ Z := by rw [e1]; simp
  rcases List.append_eq_append_iff.1 h0 with ⟨D, e, e'⟩ | ⟨D, e, e'⟩
  · rw [e, e'] at h1 h2 ⊢
    exact key h1 h2
  · rw [e, e'] at h1 h2 ⊢
    exact (key h1.symm h2.symm).symm

theorem eq_of_short {M N : Machine} {f g : Str → Str} (hf : M.Computes f) (hg : N.Computes g)
    (h : ∀ t : Str, t.length ≤ 2 * (M.all.length * N.all.length) → f t = g t) (t : Str) : f t = g t := by
  generalize hn : t.length = n
  induction n using Nat.strongRecOn generalizing t with
  | _ n ih =>
    by_cases hs : t.length ≤ 2 * (M.all.length * N.all.length)
    · exact h t hs
    · obtain ⟨p, u, p', v, w, a1, a2, a3, ef⟩ := (hf t _).2 rfl
      obtain ⟨q, u', q', v', w', b1, b2, b3, eg⟩ := (hg t _).2 rfl
      obtain ⟨l, c1, c2, c3, c4, c5⟩ := exists_joint a2 b2
      have hl : l.length = t.length := by rw [← c3, List.length_map]
      obtain ⟨a, e1, b, e2, c, e3, d, e, s1, s2⟩ := exists_thrice (fun e => e.2.1) (M.comp N).all l
        (fun e _ => (M.comp N).complete _) (by rw [comp_length]; omega)
      have e' : l = (a ++ [e1]) ++ (b ++ [e2]) ++ (c ++ [e3]) ++ d := by rw [e]; simp
      generalize hA : a ++ [e1] = A at e'
      generalize hB : b ++ [e2] = B at e'
      generalize hC : c ++ [e3] = C at e'
      have fA : ∀ P, final P A = e1.2.1 := fun P => by rw [← hA, final_append]; rfl
      have fB : ∀ P, final P B = e1.2.1 := fun P => by rw [← hB, final_append, s1]; rfl
      have fC : ∀ P, final P C = e1.2.1 := fun P => by rw [← hC, final_append, s1, s2]; rfl
      have lB : 0 < B.length := by rw [← hB]; simp
      have lC : 0 < C.length := by rw [← hC]; simp
      rw [e', joint_append, joint_append, joint_append] at c1
      simp only [final_append, fA, fB, fC] at c1
      obtain ⟨⟨⟨j1, j2⟩, j3⟩, j4⟩ := c1
      rw [e'] at c2 c3 c4 c5
      simp only [final_append, fA, fB, fC] at c2
      have hlen := congrArg List.length e'
      simp only [List.length_append] at hlen
      -- a shorter accepted path
      have short : ∀ m, Joint M N (p, q) m → final (p, q) m = (p', q') → m.length < n →
          u ++ m.flatMap (·.2.2.1) ++ w = u' ++ m.flatMap (·.2.2.2) ++ w' := by
        intro m hm hfin hlt
        have r := joint_run hm
        rw [hfin] at r
        have k1 := (hf (m.map (·.1)) _).1 ⟨p, u, p', _, w, a1, r.1, a3, rfl⟩
        have k2 := (hg (m.map (·.1)) _).1 ⟨q, u', q', _, w', b1, r.2, b3, rfl⟩
        rw [k1, k2]
        exact ih _ hlt _ (by rw [List.length_map])
      have k0 := short (A ++ d) (joint_append.2 ⟨j1, by rw [fA]; exact j4⟩) (by rw [final_append, fA]; exact c2)
        (by rw [List.length_append]; omega)
      have k1 := short (A ++ B ++ d) (joint_append.2 ⟨joint_append.2 ⟨j1, by rw [fA]; exact j2⟩,
        by rw [final_append, fA, fB]; exact j4⟩) (by rw [final_append, final_append, fA, fB]; exact c2)
        (by simp only [List.length_append]; omega)
      have k2 := short (A ++ C ++ d) (joint_append.2 ⟨joint_append.2 ⟨j1, by rw [fA]; exact j3⟩,
        by rw [final_append, fA, fC]; exact j4⟩) (by rw [final_append, final_append, fA, fC]; exact c2)
        (by simp only [List.length_append]; omega)
      rw [ef, eg, ← c4, ← c5]
      simp only [List.flatMap_append] at k0 k1 k2 ⊢
      have := loops (U := u ++ A.flatMap (·.2.2.1)) (U' := u' ++ A.flatMap (·.2.2.2))
        (X := B.flatMap (·.2.2.1)) (X' := B.flatMap (·.2.2.2)) (Y := C.flatMap (·.2.2.1))
        (Y' := C.flatMap (·.2.2.2)) (Z := d.flatMap (·.2.2.1) ++ w) (Z' := d.flatMap (·.2.2.2) ++ w')
        (by simpa [List.append_assoc] using k0) (by simpa [List.append_assoc] using k1)
        (by simpa [List.append_assoc] using k2)
      simpa [List.append_assoc] using this

/-- A machine that never guesses. -/
def det {σ : Type} (all : List σ) (complete : ∀ s, s ∈ all) (s0 : σ) (o0 : Str) (δ : σ → Char → σ × Str)
    (fin : σ → Str) : Machine where
  St := σ
  all := all
  complete := complete
  start := fun s o => s = s0 ∧ o = o0
  step := fun s c s' o => δ s c = (s', o)
  stop := fun s o => o = fin s

theorem det_computes {σ : Type} (all : List σ) (complete : ∀ s, s ∈ all) (s0 : σ) (o0 : Str)
    (δ : σ → Char → σ × Str) (fin : σ → Str) (F : σ → Str → Str) (h0 : ∀ s, F s [] = fin s)
    (h1 : ∀ s c t, F s (c :: t) = (δ s c).2 ++ F (δ s c).1 t) :
    (det all complete s0 o0 δ fin).Computes (fun t => o0 ++ F s0 t) := by
  have run : ∀ (t : Str) (s s' : σ) (o : Str), (det all complete s0 o0 δ fin).Run s t s' o →
      F s t = o ++ fin s' := by
    intro t
    induction t with
    | nil =>
      intro s s' o h
      obtain ⟨h1, h2⟩ := h.nil_inv
      have h1 : s = s' := h1
      rw [h0, h1, h2]; rfl
    | cons c t ih =>
      intro s s' o h
      obtain ⟨m, o1, o2, h2, h3, h4⟩ := h.cons_inv
      have h2 : δ s c = (m, o1) := h2
      rw [h1, h2, h4, List.append_assoc, ← ih m s' o2 h3]
  have ex : ∀ (t : Str) (s : σ), ∃ s' o, (det all complete s0 o0 δ fin).Run s t s' o := by
    intro t
    induction t with
    | nil => intro s; exact ⟨s, [], .nil (M := det all complete s0 o0 δ fin) s⟩
    | cons c t ih =>
      intro s
      obtain ⟨s', o, h⟩ := ih (δ s c).1
      exact ⟨s', _, .cons (M := det all complete s0 o0 δ fin) (s := s) (c := c) rfl h⟩
  intro t o
  constructor
  · rintro ⟨s, o1, s', o2, o3, ⟨e1, e2⟩, h, e3, rfl⟩
    have e1 : s = s0 := e1
    have e3 : o3 = fin s' := e3
    show _ = o0 ++ F s0 t
    rw [← e1, run t s s' o2 h, e2, e3, List.append_assoc]
  · rintro rfl
    obtain ⟨s', o, h⟩ := ex t s0
    refine ⟨s0, o0, s', o, fin s', ⟨rfl, rfl⟩, h, rfl, ?_⟩
    show o0 ++ F s0 t = _
    rw [run t s0 s' o h, List.append_assoc]

end Machine

/-- The function is computed by a machine with `n` states. -/
def FiniteState (n : Nat) (f : Str → Str) : Prop := ∃ M : Machine, M.all.length = n ∧ M.Computes f

theorem FiniteState.comp {n m : Nat} {f g : Str → Str} (hf : FiniteState n f) (hg : FiniteState m g) :
    FiniteState (n * m) (fun t => g (f t)) := by
  obtain ⟨M, rfl, h⟩ := hf
  obtain ⟨N, rfl, h'⟩ := hg
  exact ⟨M.comp N, Machine.comp_length M N, Machine.comp_computes h h'⟩

theorem FiniteState.eq_of_short {n m : Nat} {f g : Str → Str} (hf : FiniteState n f) (hg : FiniteState m g)
    (h : ∀ t : Str, t.length ≤ 2 * (n * m) → f t = g t) (t : Str) : f t = g t := by
  obtain ⟨M, rfl, h1⟩ := hf
  obtain ⟨N, rfl, h2⟩ := hg
  exact Machine.eq_of_short h1 h2 h t

theorem FiniteState.det {σ : Type} (all : List σ) (complete : ∀ s, s ∈ all) (s0 : σ) (o0 : Str)
    (δ : σ → Char → σ × Str) (fin : σ → Str) (F : σ → Str → Str) (h0 : ∀ s, F s [] = fin s)
    (h1 : ∀ s c t, F s (c :: t) = (δ s c).2 ++ F (δ s c).1 t) :
    FiniteState all.length (fun t => o0 ++ F s0 t) :=
  ⟨_, rfl, Machine.det_computes all complete s0 o0 δ fin F h0 h1⟩

end Chanoma
