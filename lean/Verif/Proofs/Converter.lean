import Verif.Spec.Convert
/-! # Lemmas about `CharacterConverter` -/

namespace Chanoma

/-! ## Hash maps -/

section HMap
variable {κ ν : Type} [DecidableEq κ]

theorem HMap.get?_insert (m : HMap κ ν) (k k' : κ) (v : ν) :
    (m.insert k v).get? k' = if k = k' then some v else m.get? k' := by
  induction m with
  | nil => simp [HMap.insert, HMap.get?]
  | cons e m ih =>
    obtain ⟨k0, v0⟩ := e
    simp only [HMap.insert]
    split
    · rename_i h; subst h
      by_cases hk : k0 = k' <;> simp [HMap.get?, hk]
    · rename_i h
      simp only [HMap.get?, ih]
      by_cases hk : k0 = k'
      · subst hk; simp only [if_true]; rw [if_neg (fun e => h e.symm)]
      · simp [hk]

/-- The tagged elements stored in a map of buckets. -/
def flat {α : Type} (el : ν → List α) (m : HMap κ ν) : List (κ × α) :=
  m.flatMap fun e => (el e.2).map fun x => (e.1, x)

theorem flat_entryUpdate {α : Type} (el : ν → List α) (d : ν) (f : ν → ν) (x : α)
    (hd : el d = []) (m : HMap κ ν) (hf : ∀ v, (v = d ∨ ∃ k, (k, v) ∈ m) → el (f v) = el v ++ [x])
    (k : κ) : (flat el (HMap.entryUpdate d f m k)).Perm (flat el m ++ [(k, x)]) := by
  induction m with
  | nil => simp [HMap.entryUpdate, flat, hf d (.inl rfl), hd]
  | cons e m ih =>
    obtain ⟨k0, v0⟩ := e
    simp only [HMap.entryUpdate]
    split
    · rename_i h; subst h
      simp only [flat, List.flatMap_cons, hf v0 (.inr ⟨k0, by simp⟩), List.map_append, List.map_cons,
        List.map_nil, List.append_assoc]
      exact List.Perm.append_left _ List.perm_append_comm
    · simp only [flat, List.flatMap_cons, List.append_assoc]
      refine List.Perm.append_left _ (ih fun v hv => hf v ?_)
      rcases hv with h | ⟨k, h⟩
      · exact .inl h
      · exact .inr ⟨k, by simp [h]⟩

theorem entryUpdate_forall {d : ν} {f : ν → ν} {P : κ → ν → Prop} {m : HMap κ ν} {k : κ}
    (hm : ∀ e ∈ m, P e.1 e.2) (hd : P k (f d)) (hf : ∀ v, P k v → P k (f v)) :
    ∀ e ∈ HMap.entryUpdate d f m k, P e.1 e.2 := by
  induction m with
  | nil => simpa [HMap.entryUpdate] using hd
  | cons e m ih =>
    obtain ⟨k0, v0⟩ := e
    simp only [HMap.entryUpdate]
    split
    · rename_i h; subst h
      intro e he
      rcases List.mem_cons.mp he with rfl | he
      · exact hf _ (hm (k0, v0) (by simp))
      · exact hm e (by simp [he])
    · intro e he
      rcases List.mem_cons.mp he with rfl | he
      · exact hm _ (by simp)
      · exact ih (fun e he => hm e (by simp [he])) e he

end HMap

/-! ## Collecting the occurrences -/

theorem convCollect_fst (input : Str) : (convCollect input).1 = input := by
  unfold convCollect
  suffices ∀ (l : List (Char × Nat)) (st : Str × HMap Char (List Nat)),
      (l.foldl (fun st ci => (st.1 ++ [ci.1], HMap.entryUpdate [] (· ++ [ci.2]) st.2 ci.1)) st).1 =
        st.1 ++ l.map Prod.fst by
    rw [this]; simp
  intro l
  induction l with
  | nil => simp
  | cons a l ih => intro st; rw [List.foldl_cons, ih]; simp

theorem convCollect_flat (input : Str) :
    (flat (fun v => v) (convCollect input).2).Perm input.zipIdx := by
  unfold convCollect
  suffices ∀ (l : List (Char × Nat)) (st : Str × HMap Char (List Nat)),
      (flat (fun v => v) (l.foldl (fun st ci =>
        (st.1 ++ [ci.1], HMap.entryUpdate [] (· ++ [ci.2]) st.2 ci.1)) st).2).Perm
        (flat (fun v => v) st.2 ++ l) by
    simpa [flat] using this input.zipIdx ([], [])
  intro l
  induction l with
  | nil => intro st; simp
  | cons a l ih =>
    intro st
    rw [List.foldl_cons]
    refine (ih _).trans ?_
    have := flat_entryUpdate (fun v : List Nat => v) [] (· ++ [a.2]) a.2 rfl st.2 (fun _ _ => rfl) a.1
    refine (this.append_right l).trans ?_
    simp

theorem convCollectPos_fst (input : Str) : (convCollectPos input).1 = input := by
  unfold convCollectPos
  have hsnd : ∀ (off : Nat) (s : Str), (charIndicesFrom off s).map Prod.snd = s := by
    intro off s
    induction s generalizing off with
    | nil => rfl
    | cons c s ih => simp [charIndicesFrom, ih]
  suffices ∀ (l : List ((Nat × Char) × Nat)) (st : Str × HMap Char CharPos),
      (l.foldl (fun st e =>
        let c := e.1.2
        let i := e.1.1
        let index := e.2
        (st.1 ++ [c],
          HMap.entryUpdate ⟨c.utf8Size, [], []⟩
            (fun p => { p with indices := p.indices ++ [index], utf8Indices := p.utf8Indices ++ [i] })
            st.2 c)) st).1 = st.1 ++ l.map fun e => e.1.2 by
    rw [this]
    have : (fun e : (Nat × Char) × Nat => e.1.2) = Prod.snd ∘ Prod.fst := rfl
    rw [this, ← List.map_map]
    simp [charIndices, hsnd]
  intro l
  induction l with
  | nil => simp
  | cons a l ih => intro st; rw [List.foldl_cons, ih]; simp

/-- The bucket contents as pairs of character index and byte offset. -/
def CharPos.elems (p : CharPos) : List (Nat × Nat) := p.indices.zip p.utf8Indices

theorem convCollectPos_inv (input : Str) :
    (∀ e ∈ (convCollectPos input).2, e.2.length = e.1.utf8Size ∧
      e.2.indices.length = e.2.utf8Indices.length) ∧
    (flat CharPos.elems (convCollectPos input).2).Perm
      ((charIndices input).zipIdx.map fun e => (e.1.2, (e.2, e.1.1))) := by
  unfold convCollectPos
  suffices ∀ (l : List ((Nat × Char) × Nat)) (st : Str × HMap Char CharPos),
      (∀ e ∈ st.2, e.2.length = e.1.utf8Size ∧ e.2.indices.length = e.2.utf8Indices.length) →
      (∀ e ∈ (l.foldl (fun st e =>
        let c := e.1.2
        let i := e.1.1
        let index := e.2
        (st.1 ++ [c],
          HMap.entryUpdate ⟨c.utf8Size, [], []⟩
            (fun p => { p with indices := p.indices ++ [index], utf8Indices := p.utf8Indices ++ [i] })
            st.2 c)) st).2, e.2.length = e.1.utf8Size ∧
              e.2.indices.length = e.2.utf8Indices.length) ∧
      (flat CharPos.elems (l.foldl (fun st e =>
        let c := e.1.2
        let i := e.1.1
        let index := e.2
        (st.1 ++ [c],
          HMap.entryUpdate ⟨c.utf8Size, [], []⟩
            (fun p => { p with indices := p.indices ++ [index], utf8Indices := p.utf8Indices ++ [i] })
            st.2 c)) st).2).Perm (flat CharPos.elems st.2 ++ l.map fun e => (e.1.2, (e.2, e.1.1))) by
    simpa [flat] using this (charIndices input).zipIdx ([], []) (by simp)
  intro l
  induction l with
  | nil => intro st h; simpa using h
  | cons a l ih =>
    intro st hst
    rw [List.foldl_cons]
    have h1 := entryUpdate_forall (m := st.2) (k := a.1.2) (d := ⟨a.1.2.utf8Size, [], []⟩)
      (f := fun p => { p with indices := p.indices ++ [a.2], utf8Indices := p.utf8Indices ++ [a.1.1] })
      (P := fun c (p : CharPos) => p.length = c.utf8Size ∧ p.indices.length = p.utf8Indices.length)
      hst (by simp) (by rintro v ⟨h, h2⟩; simp [h, h2])
    refine ⟨(ih _ h1).1, ((ih _ h1).2).trans ?_⟩
    have := flat_entryUpdate CharPos.elems (⟨a.1.2.utf8Size, [], []⟩)
      (fun p => { p with indices := p.indices ++ [a.2], utf8Indices := p.utf8Indices ++ [a.1.1] })
      (a.2, a.1.1) rfl st.2 (by
        intro v hv
        have hlen : v.indices.length = v.utf8Indices.length := by
          rcases hv with rfl | ⟨k, hk⟩
          · rfl
          · exact (hst _ hk).2
        simp [CharPos.elems, List.zip_append hlen]) a.1.2
    refine (this.append_right _).trans ?_
    simp

/-! ## The substitution loop -/

/-- Perform assignments. -/
def assign (refs : Str) (L : List (Nat × Char)) : Str := L.foldl (fun r p => r.set p.1 p.2) refs

theorem assign_length (refs : Str) (L : List (Nat × Char)) : (assign refs L).length = refs.length := by
  unfold assign
  induction L generalizing refs with
  | nil => rfl
  | cons p L ih => rw [List.foldl_cons, ih]; simp

theorem assign_append (refs : Str) (L M : List (Nat × Char)) :
    assign refs (L ++ M) = assign (assign refs L) M := by simp [assign]

open Classical in
theorem assign_spec (f : Char → Option Char) (input : Str) (L : List (Nat × Char))
    (hL : ∀ i d, (i, d) ∈ L ↔ ∃ c, input[i]? = some c ∧ f c = some d) :
    assign input L = substitute f input := by
  suffices ∀ (L M : List (Nat × Char)) (refs : Str), refs.length = input.length →
      (∀ i d, (i, d) ∈ M ++ L → ∃ c, input[i]? = some c ∧ f c = some d) →
      (∀ i (h : i < refs.length) (h2 : i < input.length),
        refs[i] = if (∃ d, (i, d) ∈ M) then (f input[i]).getD input[i] else input[i]) →
      ∀ i (h : i < (assign refs L).length) (h2 : i < input.length),
        (assign refs L)[i] = if (∃ d, (i, d) ∈ M ++ L) then (f input[i]).getD input[i] else input[i] by
    have key := this L [] input rfl (by intro i d h; exact (hL i d).mp (by simpa using h))
      (by intro i h h2; simp)
    apply List.ext_getElem
    · rw [assign_length]; simp [substitute]
    · intro i h1 h2
      have h3 : i < input.length := by rw [assign_length] at h1; exact h1
      rw [key i h1 h3]
      simp only [List.nil_append, substitute, List.getElem_map]
      split
      · rfl
      · rename_i hno
        cases hf : f input[i] with
        | none => rfl
        | some d => exact absurd ⟨d, (hL i d).mpr ⟨input[i], by simp [h3], hf⟩⟩ hno
  intro L
  induction L with
  | nil => intro M refs _ _ h; simpa [assign] using h
  | cons p L ih =>
    intro M refs hlen hM hrefs i h1 h2
    obtain ⟨j, d⟩ := p
    have hj : ∃ c, input[j]? = some c ∧ f c = some d := hM j d (by simp)
    have := ih (M ++ [(j, d)]) (refs.set j d) (by simpa using hlen)
      (by intro i d h; exact hM i d (by simpa using h))
      (by
        intro i h h2
        rw [List.getElem_set]
        split
        · rename_i hji; subst hji
          rw [if_pos ⟨d, by simp⟩]
          obtain ⟨c, hc, hfc⟩ := hj
          rw [List.getElem?_eq_getElem h2] at hc
          cases hc
          rw [hfc]; rfl
        · rename_i hji
          rw [hrefs i (by simpa using h) h2]
          congr 1
          apply propext
          have hij : i ≠ j := fun e => hji e.symm
          simp [hij])
      i (by simpa [assign] using h1) h2
    simpa [assign] using this

theorem foldlM_ok {α β : Type} (f : α → β → Outcome α) (g : α → β → α) (P : α → Prop) (l : List β)
    (a : α) (ha : P a) (h : ∀ a b, b ∈ l → P a → f a b = .ok (g a b) ∧ P (g a b)) :
    l.foldlM f a = .ok (l.foldl g a) ∧ P (l.foldl g a) := by
  induction l generalizing a with
  | nil => exact ⟨rfl, ha⟩
  | cons b l ih =>
    obtain ⟨h1, h2⟩ := h a b (by simp) ha
    rw [List.foldlM_cons, h1]
    simp only [Outcome.ok_bind, List.foldl_cons]
    exact ih (g a b) h2 (fun a b hb hp => h a b (by simp [hb]) hp)

/-- The assignments performed for one bucket. -/
def bucketAssigns (m : HMap Char Char) (e : Char × List Nat) : List (Nat × Char) :=
  match m.get? e.1 with
  | some to => e.2.map fun i => (i, to)
  | none => []

theorem foldl_assign {α : Type} (g : α → List (Nat × Char)) (l : List α) (refs : Str) :
    l.foldl (fun r e => assign r (g e)) refs = assign refs (l.flatMap g) := by
  induction l generalizing refs with
  | nil => rfl
  | cons a l ih => rw [List.foldl_cons, ih, List.flatMap_cons, assign_append]

theorem modify_eq (x : CharacterConverter) (σ : Oracle) (input : Str) :
    x.modify σ input = .ok (substitute x.itemsMap.get? input) := by
  have hmem : ∀ (e : Char × List Nat), e ∈ (convCollect input).2 → ∀ i ∈ e.2, input[i]? = some e.1 := by
    intro e he i hi
    have : (e.1, i) ∈ input.zipIdx := by
      rw [← (convCollect_flat input).mem_iff]
      simp only [flat, List.mem_flatMap, List.mem_map]
      exact ⟨e, he, i, hi, rfl⟩
    exact List.mk_mem_zipIdx_iff_getElem?.mp this
  unfold CharacterConverter.modify
  have hfst := convCollect_fst input
  rcases hc : convCollect input with ⟨refs, map⟩
  rw [hc] at hmem hfst
  simp only at hmem hfst ⊢
  subst hfst
  have := (foldlM_ok
    (fun refs (e : Char × List Nat) =>
      match x.itemsMap.get? e.1 with
      | some to => e.2.foldlM (fun refs i => setIdx refs i to) refs
      | none => .ok refs)
    (fun r e => assign r (bucketAssigns x.itemsMap e)) (fun r => r.length = refs.length) (σ.iter map)
    refs rfl (by
      intro a e he ha
      have he := (σ.iter_perm map).mem_iff.mp he
      refine ⟨?_, by rw [assign_length, ha]⟩
      simp only [bucketAssigns]
      cases x.itemsMap.get? e.1 with
      | none => rfl
      | some to =>
        simp only
        have := (foldlM_ok (fun refs i => setIdx refs i to) (fun r i => r.set i to)
          (fun r => r.length = refs.length) e.2 a ha (by
            intro r i hi hr
            have := hmem e he i hi
            have hlt : i < r.length := by
              rw [hr]; exact (List.getElem?_eq_some_iff.mp this).1
            refine ⟨by simp [setIdx, hlt], by simpa using hr⟩)).1
        rw [this]
        simp [assign, List.foldl_map])).1
  refine this.trans ?_
  rw [foldl_assign]
  congr 1
  apply assign_spec
  intro i d
  have hflat := convCollect_flat refs
  rw [hc] at hflat
  simp only at hflat
  simp only [List.mem_flatMap, (σ.iter_perm map).mem_iff]
  constructor
  · rintro ⟨e, he, hd⟩
    simp only [bucketAssigns] at hd
    split at hd
    · rename_i to hto
      simp only [List.mem_map, Prod.mk.injEq] at hd
      obtain ⟨i', hi', rfl, rfl⟩ := hd
      exact ⟨e.1, hmem e he _ hi', hto⟩
    · simp at hd
  · rintro ⟨c, hc, hf⟩
    have : (c, i) ∈ flat (fun v => v) map := by
      rw [hflat.mem_iff]; exact List.mk_mem_zipIdx_iff_getElem?.mpr hc
    simp only [flat, List.mem_flatMap, List.mem_map] at this
    obtain ⟨e, he, j, hj, heq⟩ := this
    cases heq
    refine ⟨e, he, ?_⟩
    simp only [bucketAssigns, hf, List.mem_map]
    exact ⟨_, hj, rfl⟩

/-! ## Positions -/

/-- The positions of the substituted characters of `pre ++ text` that lie in `text`: for each,
the character, its replacement, its index in characters, its offset and length in bytes. -/
def substPositions (f : Char → Option Char) : (pre text : Str) → List Position
  | _, [] => []
  | pre, c :: text =>
    (match f c with
      | some d => [{ «from» := [c], to := [d], index := pre.length, length := c.utf8Size,
                     utf8Index := strLen pre, utf8Length := 1 }]
      | none => []) ++ substPositions f (pre ++ [c]) text

/-- The position reported for one occurrence. -/
def occPos (m : HMap Char Char) (o : Char × (Nat × Nat)) : List Position :=
  match m.get? o.1 with
  | some to => [Position.new [o.1] [to] o.2.1 o.2.2 o.1.utf8Size 1]
  | none => []

/-- The assignment made for one occurrence. -/
def occAssign (m : HMap Char Char) (o : Char × (Nat × Nat)) : List (Nat × Char) :=
  match m.get? o.1 with
  | some to => [(o.2.1, to)]
  | none => []

theorem zipIdx_getD_zip (is us : List Nat) (h : is.length = us.length) :
    (is.zipIdx.map fun ci => (ci.1, us.getD ci.2 0)) = is.zip us := by
  apply List.ext_getElem
  · simp [h]
  · intro i h1 h2
    simp at h1 h2
    have h3 : i < us.length := by omega
    simp [h3]

theorem foldl_pair_push {α β γ : Type} (f : γ → α → γ) (p : α → β) (l : List α) (r : γ) (ps : List β) :
    l.foldl (fun (st : γ × List β) a => (f st.1 a, st.2 ++ [p a])) (r, ps) =
      (l.foldl f r, ps ++ l.map p) := by
  induction l generalizing r ps with
  | nil => simp
  | cons a l ih => rw [List.foldl_cons, ih]; simp

theorem modifyWithPositions_eq (x : CharacterConverter) (σ : Oracle) (input : Str) :
    ∃ ps, x.modifyWithPositions σ input =
        .ok ⟨.characterConverter x, substitute x.itemsMap.get? input, ps⟩ ∧
      ps.Perm (((charIndices input).zipIdx.map fun e => (e.1.2, (e.2, e.1.1))).flatMap
        (occPos x.itemsMap)) := by
  have hinv := convCollectPos_inv input
  have hfst := convCollectPos_fst input
  have hocc : ∀ c i u, (c, (i, u)) ∈ ((charIndices input).zipIdx.map fun e => (e.1.2, (e.2, e.1.1))) →
      input[i]? = some c := by
    intro c i u h
    simp only [List.mem_map, Prod.mk.injEq] at h
    obtain ⟨⟨⟨u', c'⟩, i'⟩, h, rfl, rfl, rfl⟩ := h
    have h := List.mk_mem_zipIdx_iff_getElem?.mp h
    have hsnd : ∀ (off : Nat) (s : Str), (charIndicesFrom off s).map Prod.snd = s := by
      intro off s
      induction s generalizing off with
      | nil => rfl
      | cons c s ih => simp [charIndicesFrom, ih]
    have h2 : ((charIndices input).map Prod.snd)[i']? = some c' := by
      rw [List.getElem?_map, h]; rfl
    simpa [charIndices, hsnd] using h2
  have hocc2 : ∀ c i, input[i]? = some c →
      ∃ u, (c, (i, u)) ∈ ((charIndices input).zipIdx.map fun e => (e.1.2, (e.2, e.1.1))) := by
    intro c i h
    have hsnd : ∀ (off : Nat) (s : Str), (charIndicesFrom off s).map Prod.snd = s := by
      intro off s
      induction s generalizing off with
      | nil => rfl
      | cons c s ih => simp [charIndicesFrom, ih]
    have h2 : ((charIndices input).map Prod.snd)[i]? = some c := by
      simpa [charIndices, hsnd] using h
    rw [List.getElem?_map, Option.map_eq_some_iff] at h2
    obtain ⟨⟨u, c'⟩, h3, rfl⟩ := h2
    refine ⟨u, ?_⟩
    simp only [List.mem_map, Prod.mk.injEq]
    exact ⟨((u, c'), i), List.mk_mem_zipIdx_iff_getElem?.mpr h3, rfl, rfl, rfl⟩
  unfold CharacterConverter.modifyWithPositions
  rcases hc : convCollectPos input with ⟨refs, map⟩
  rw [hc] at hinv hfst
  simp only at hinv hfst ⊢
  subst hfst
  obtain ⟨hwf, hflat⟩ := hinv
  have hin : ∀ e ∈ map, ∀ o ∈ e.2.elems, refs[o.1]? = some e.1 := by
    intro e he o ho
    apply hocc e.1 o.1 o.2
    rw [← hflat.mem_iff]
    simp only [flat, List.mem_flatMap, List.mem_map]
    exact ⟨e, he, o, ho, rfl⟩
  have inner := fun (to : Char) (e : Char × CharPos) (he : e ∈ map) (st : Str × List Position)
      (hst : st.1.length = refs.length) =>
    (foldlM_ok
      (fun (st : Str × List Position) ci => (do
        let refs ← setIdx st.1 ci.1 to
        let u ← getIdx e.2.utf8Indices ci.2
        return (refs, st.2 ++ [Position.new [e.1] [to] ci.1 u e.2.length 1]) : Outcome _))
      (fun st ci => (st.1.set ci.1 to, st.2 ++
        [Position.new [e.1] [to] ci.1 (e.2.utf8Indices.getD ci.2 0) e.2.length 1]))
      (fun st => st.1.length = refs.length) e.2.indices.zipIdx st hst (by
        intro a ci hci ha
        have h1 := List.mk_mem_zipIdx_iff_getElem?.mp (show (ci.1, ci.2) ∈ _ from hci)
        have h1' := (List.getElem?_eq_some_iff.mp h1).1
        have h2 : ci.2 < e.2.utf8Indices.length := by rw [← (hwf e he).2]; exact h1'
        have hz : (ci.1, e.2.utf8Indices[ci.2]) ∈ e.2.elems := by
          unfold CharPos.elems
          rw [List.mem_iff_getElem?]
          refine ⟨ci.2, ?_⟩
          rw [List.getElem?_zip_eq_some]
          exact ⟨h1, by simp [h2]⟩
        have h3 := (List.getElem?_eq_some_iff.mp (hin e he _ hz)).1
        refine ⟨?_, by simpa using ha⟩
        have h4 : ci.1 < a.1.length := by rw [ha]; exact h3
        simp [setIdx, h4, getIdx, h2, unwrap])).1
  have outer := (foldlM_ok
    (fun (st : Str × List Position) (e : Char × CharPos) =>
      match x.itemsMap.get? e.1 with
      | some to => e.2.indices.zipIdx.foldlM (fun (st : Str × List Position) ci => do
          let refs ← setIdx st.1 ci.1 to
          let u ← getIdx e.2.utf8Indices ci.2
          return (refs, st.2 ++ [Position.new [e.1] [to] ci.1 u e.2.length 1])) st
      | none => .ok st)
    (fun st e => (assign st.1 ((e.2.elems.map fun o => (e.1, o)).flatMap (occAssign x.itemsMap)),
      st.2 ++ (e.2.elems.map fun o => (e.1, o)).flatMap (occPos x.itemsMap)))
    (fun st => st.1.length = refs.length) (σ.iter map) (refs, []) rfl (by
      intro st e he hst
      have he := (σ.iter_perm map).mem_iff.mp he
      refine ⟨?_, by simpa [assign_length] using hst⟩
      cases hg : x.itemsMap.get? e.1 with
      | none =>
        have e0 : ∀ {β : Type} (l : List (Nat × Nat)), l.flatMap (fun _ => ([] : List β)) = [] := by
          intro β l; simp
        simp only [occAssign, occPos, hg, List.flatMap_map, assign, e0, List.foldl_nil, List.append_nil]
      | some to =>
        simp only
        refine (inner to e he st hst).trans ?_
        rw [foldl_pair_push (fun (r : Str) (ci : Nat × Nat) => r.set ci.1 to)]
        have hz := zipIdx_getD_zip e.2.indices e.2.utf8Indices (hwf e he).2
        have e1 : e.2.indices.zipIdx.foldl (fun (r : Str) (ci : Nat × Nat) => r.set ci.1 to) st.1 =
            assign st.1 ((e.2.elems.map fun o => (e.1, o)).flatMap (occAssign x.itemsMap)) := by
          unfold CharPos.elems
          rw [← hz]
          simp [assign, occAssign, hg, List.flatMap_map, List.foldl_map, ← List.map_eq_flatMap]
        have e2 : e.2.indices.zipIdx.map (fun ci => Position.new [e.1] [to] ci.1
              (e.2.utf8Indices.getD ci.2 0) e.2.length 1) =
            (e.2.elems.map fun o => (e.1, o)).flatMap (occPos x.itemsMap) := by
          unfold CharPos.elems
          rw [← hz]
          simp [occPos, hg, List.flatMap_map, ← List.map_eq_flatMap, (hwf e he).1]
        rw [e1, e2])).1
  have hfold : ∀ (l : List (Char × CharPos)) (r : Str) (ps : List Position),
      l.foldl (fun (st : Str × List Position) e =>
        (assign st.1 ((e.2.elems.map fun o => (e.1, o)).flatMap (occAssign x.itemsMap)),
          st.2 ++ (e.2.elems.map fun o => (e.1, o)).flatMap (occPos x.itemsMap))) (r, ps) =
      (assign r ((flat CharPos.elems l).flatMap (occAssign x.itemsMap)),
        ps ++ (flat CharPos.elems l).flatMap (occPos x.itemsMap)) := by
    intro l
    induction l with
    | nil => intro r ps; simp [flat, assign]
    | cons a l ih =>
      intro r ps
      rw [List.foldl_cons, ih]
      simp [flat, assign_append, List.flatMap_assoc]
  rw [hfold] at outer
  have hperm : (flat CharPos.elems (σ.iter map)).Perm
      ((charIndices refs).zipIdx.map fun e => (e.1.2, (e.2, e.1.1))) :=
    ((σ.iter_perm map).flatMap_right _).trans hflat
  refine ⟨(flat CharPos.elems (σ.iter map)).flatMap (occPos x.itemsMap), ?_, hperm.flatMap_right _⟩
  have : assign refs ((flat CharPos.elems (σ.iter map)).flatMap (occAssign x.itemsMap)) =
      substitute x.itemsMap.get? refs := by
    apply assign_spec
    intro i d
    simp only [List.mem_flatMap, hperm.mem_iff]
    constructor
    · rintro ⟨⟨c, i', u⟩, ho, hd⟩
      simp only [occAssign] at hd
      split at hd
      · rename_i to hto
        simp only [List.mem_singleton, Prod.mk.injEq] at hd
        obtain ⟨rfl, rfl⟩ := hd
        exact ⟨c, hocc c _ u ho, hto⟩
      · simp at hd
    · rintro ⟨c, hc, hf⟩
      obtain ⟨u, hu⟩ := hocc2 c i hc
      exact ⟨_, hu, by simp [occAssign, hf]⟩
  rw [this] at outer
  have h2 := congrArg (fun o => o >>= fun (p : Str × List Position) =>
    (pure ⟨.characterConverter x, p.1, p.2⟩ : Outcome ModifiedRecord)) outer
  refine Eq.trans ?_ h2
  rfl

theorem occPos_substPositions (m : HMap Char Char) (input : Str) :
    ((charIndices input).zipIdx.map fun e => (e.1.2, (e.2, e.1.1))).flatMap (occPos m) =
      substPositions m.get? [] input := by
  suffices ∀ (pre text : Str), (((charIndicesFrom (strLen pre) text).zipIdx pre.length).map
      fun e => (e.1.2, (e.2, e.1.1))).flatMap (occPos m) = substPositions m.get? pre text by
    simpa [charIndices, strLen] using this [] input
  intro pre text
  induction text generalizing pre with
  | nil => rfl
  | cons c text ih =>
    have h := ih (pre ++ [c])
    have h2 : strLen (pre ++ [c]) = strLen pre + c.utf8Size := by simp [strLen]
    rw [h2] at h
    simp only [List.length_append, List.length_cons, List.length_nil] at h
    simp only [charIndicesFrom, List.zipIdx_cons, List.map_cons, List.flatMap_cons, substPositions]
    rw [← h]
    congr 1

/-! ## Building the map from tables -/

theorem fromTables_step (items : List Item) (m : HMap Char Char) :
    (CellsNonEmpty items → ∃ m', items.foldlM (fun (m : HMap Char Char) (item : Item) => (do
        let f ← unwrap item.from.head?
        let t ← unwrap item.to.head?
        return m.insert f t : Outcome _)) m = .ok m' ∧
      ∀ c, m'.get? c = (itemSubst items c).or (m.get? c)) ∧
    (¬ CellsNonEmpty items → items.foldlM (fun (m : HMap Char Char) (item : Item) => (do
        let f ← unwrap item.from.head?
        let t ← unwrap item.to.head?
        return m.insert f t : Outcome _)) m = .panic) := by
  induction items generalizing m with
  | nil => exact ⟨fun _ => ⟨m, rfl, by simp [itemSubst]⟩, fun h => absurd (by simp [CellsNonEmpty]) h⟩
  | cons i items ih =>
    rcases hf : i.from with _ | ⟨f, fs⟩
    · refine ⟨fun h => absurd hf (h i (by simp)).1, fun _ => ?_⟩
      simp [hf, unwrap]
    · rcases ht : i.to with _ | ⟨t, ts⟩
      · refine ⟨fun h => absurd ht (h i (by simp)).2, fun _ => ?_⟩
        simp [hf, ht, unwrap]
      · simp only [List.foldlM_cons, hf, ht, List.head?_cons, unwrap, Outcome.ok_bind, Outcome.pure_eq]
        obtain ⟨h1, h2⟩ := ih (m.insert f t)
        simp only [unwrap, Outcome.pure_eq] at h1 h2
        refine ⟨fun h => ?_, fun h => ?_⟩
        · obtain ⟨m', hm', hget⟩ := h1 (fun j hj => h j (by simp [hj]))
          refine ⟨m', hm', fun c => ?_⟩
          rw [hget, HMap.get?_insert]
          simp only [itemSubst, List.reverse_cons, List.find?_append]
          have hmem : ∀ j, List.find? (fun i => decide (i.from.head? = some c)) items.reverse = some j →
              ∃ d, j.to.head? = some d := by
            intro j hj
            have := List.mem_of_find?_eq_some hj
            have := (h j (by simp only [List.mem_reverse] at this; simp [this])).2
            cases hd : j.to with
            | nil => exact absurd hd this
            | cons d _ => exact ⟨d, rfl⟩
          cases hfind : List.find? (fun i => decide (i.from.head? = some c)) items.reverse with
          | some j =>
            obtain ⟨d, hd⟩ := hmem j hfind
            simp [hd]
          | none =>
            by_cases hfc : f = c <;> simp [hf, ht, hfc]
        · apply h2
          intro hc
          apply h
          intro j hj
          rcases List.mem_cons.mp hj with rfl | hj
          · simp [hf, ht]
          · exact hc j hj

theorem fromTables_one_ok (t : Table) (h : CellsNonEmpty t.items) :
    ∃ x, CharacterConverter.fromTables [t] = .ok x ∧ x.itemsMap.get? = itemSubst t.items := by
  obtain ⟨m', h1, h2⟩ := (fromTables_step t.items []).1 h
  refine ⟨⟨m'⟩, ?_, ?_⟩
  · simp only [CharacterConverter.fromTables, List.foldlM_cons, List.foldlM_nil]
    rw [h1]; rfl
  · funext c; simp [h2, HMap.get?]

theorem fromTables_one_panic (t : Table) (h : ¬ CellsNonEmpty t.items) :
    CharacterConverter.fromTables [t] = .panic := by
  simp only [CharacterConverter.fromTables, List.foldlM_cons, List.foldlM_nil]
  rw [(fromTables_step t.items []).2 h]; rfl

end Chanoma
