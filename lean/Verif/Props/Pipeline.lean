import Verif.Proofs.Pipeline
/-! # C20-C22: pipelines -/

namespace Chanoma

/-- C20: for every pipeline with at least one modifier obtained through the public interface,
`normalize` and `normalize_with_positions` succeed on every text and agree. -/
theorem C20_positions_agree (c : Chanoma) (hc : ApiBuilt c) (hne : c.modifiers ≠ [])
    (σs : Nat → Oracle) (text : Str) :
    ∃ out rs, c.normalize σs false text = .ok out ∧ c.normalizeWithPositions σs text = .ok rs ∧
      rs.text = .ok out := by
  obtain ⟨rs, h1, h2, h3⟩ := pipeline_eq c (apiBuilt_wf hc) σs text
  refine ⟨_, ⟨rs⟩, h3, h2, records_text rs text ?_⟩
  intro e
  have := chained_length h1
  rw [e] at this
  exact hne (List.eq_nil_of_length_eq_zero this.symm)

/-- A pipeline obtained through the interface, with a modifier whose two implementations differ. -/
example (σ : Oracle) : ∃ c c', Chanoma.preset σ = .ok c ∧ (Call.useNeologdn σ).run c = .ok c' ∧
    ApiBuilt c' ∧ c'.modifiers ≠ [] := by
  obtain ⟨x, h1, -⟩ := allCharactersSet_ok σ
  have h1' : Chanoma.preset σ = .ok ⟨[.characterConverter x]⟩ := by simp [Chanoma.preset, h1]
  obtain ⟨c', h2⟩ := (call_succeeds ⟨[.characterConverter x]⟩ (.useNeologdn σ)).mpr trivial
  refine ⟨_, c', h1', h2, .call _ (.preset h1') h2, ?_⟩
  obtain ⟨k, hk, -⟩ := call_run h2
  simp [hk]

/-- C21 is false for a pipeline without modifiers: with debug logging `normalize` panics,
without it the text is returned. -/
theorem C21_empty_pipeline (σs : Nat → Oracle) (text : Str) :
    Chanoma.new.normalize σs true text = .panic ∧ Chanoma.new.normalize σs false text = .ok text :=
  ⟨rfl, rfl⟩

/-- C21, for pipelines with at least one modifier.
Missing for the full claim: the empty pipeline, for which `C21_empty_pipeline` refutes it. -/
theorem C21_debug_partial (c : Chanoma) (hc : ApiBuilt c) (hne : c.modifiers ≠ [])
    (σs : Nat → Oracle) (text : Str) : c.normalize σs true text = c.normalize σs false text := by
  obtain ⟨out, rs, h1, h2, h3⟩ := C20_positions_agree c hc hne σs text
  rw [h1]
  simp [Chanoma.normalize, h2, h3]

/-- C21, exactly: debug logging never changes the result of a normaliser obtained through the public
interface if and only if it has a modifier. -/
theorem C21_exactly (c : Chanoma) (hc : ApiBuilt c) :
    (∀ σs text, c.normalize σs true text = c.normalize σs false text) ↔ c.modifiers ≠ [] := by
  refine ⟨fun h e => ?_, fun hne σs text => C21_debug_partial c hc hne σs text⟩
  have hc' : c = Chanoma.new := by cases c; cases e; rfl
  have h1 := h (fun _ => .insertion) []
  rw [hc', (C21_empty_pipeline _ _).1, (C21_empty_pipeline _ _).2] at h1
  cases h1

theorem normalize_call {c c' : Chanoma} {call : Call} (h : call.run c = .ok c') (σs : Nat → Oracle)
    (text : Str) : c'.normalize σs false text =
      (c.normalize σs false text >>= fun o => .ok (call.meaning o)) := by
  obtain ⟨k, hk, -, hm⟩ := call_run h
  simp only [Chanoma.normalize, Bool.not_false, if_true, hk, List.zipIdx_append, List.foldlM_append,
    List.zipIdx_singleton, List.foldlM_cons, List.foldlM_nil, hm, Outcome.ok_bind, Outcome.pure_eq]

/-- C22: a sequence of calls on any pipeline succeeds exactly if no table with an empty cell is
added; then the modifiers are appended, one per call, and `normalize` applies, after what the
pipeline did before, what the calls stand for, in call order. -/
theorem C22_call_order (c : Chanoma) (calls : List Call) :
    ((∃ c', calls.foldlM Call.run c = .ok c') ↔ ∀ call ∈ calls, call.Accepted) ∧
    ∀ c', calls.foldlM Call.run c = .ok c' →
      (∃ ks, c'.modifiers = c.modifiers ++ ks ∧ ks.length = calls.length) ∧
      ∀ σs text out, c.normalize σs false text = .ok out →
        c'.normalize σs false text = .ok (calls.foldl Call.meaning out) := by
  induction calls generalizing c with
  | nil =>
    refine ⟨by simp, fun c' h => ?_⟩
    cases h
    exact ⟨⟨[], by simp, rfl⟩, fun σs text out h => h⟩
  | cons call calls ih =>
    constructor
    · constructor
      · rintro ⟨c', h⟩
        rw [List.foldlM_cons, bind_eq_ok] at h
        obtain ⟨c1, h1, h2⟩ := h
        intro d hd
        rcases List.mem_cons.mp hd with rfl | hd
        · exact (call_succeeds c d).mp ⟨c1, h1⟩
        · exact (ih c1).1.mp ⟨c', h2⟩ d hd
      · intro h
        obtain ⟨c1, h1⟩ := (call_succeeds c call).mpr (h call (by simp))
        obtain ⟨c', h2⟩ := (ih c1).1.mpr fun d hd => h d (by simp [hd])
        exact ⟨c', by rw [List.foldlM_cons, bind_eq_ok]; exact ⟨c1, h1, h2⟩⟩
    · intro c' h
      rw [List.foldlM_cons, bind_eq_ok] at h
      obtain ⟨c1, h1, h2⟩ := h
      obtain ⟨⟨ks, hks, hlen⟩, hn⟩ := (ih c1).2 c' h2
      obtain ⟨k, hk, -⟩ := call_run h1
      refine ⟨⟨k :: ks, by simp [hks, hk], by simp [hlen]⟩, fun σs text out ho => ?_⟩
      refine hn σs text _ ?_
      rw [normalize_call h1, ho]; rfl

/-- C22, from the empty pipeline, with either log level. -/
theorem C22_from_new (calls : List Call) (c : Chanoma)
    (hc : calls.foldlM Call.run Chanoma.new = .ok c) (σs : Nat → Oracle) (text : Str) :
    c.normalize σs false text = .ok (calls.foldl Call.meaning text) ∧
    (calls ≠ [] → c.normalize σs true text = .ok (calls.foldl Call.meaning text)) := by
  obtain ⟨⟨ks, hks, hlen⟩, hn⟩ := (C22_call_order Chanoma.new calls).2 c hc
  have h1 := hn σs text text rfl
  refine ⟨h1, fun hne => ?_⟩
  have hb : ∀ (calls : List Call) (c0 c : Chanoma), ApiBuilt c0 → calls.foldlM Call.run c0 = .ok c → ApiBuilt c := by
    intro calls
    induction calls with
    | nil => intro c0 c h0 h; cases h; exact h0
    | cons call calls ih =>
      intro c0 c h0 h
      rw [List.foldlM_cons, bind_eq_ok] at h
      obtain ⟨c1, h1, h2⟩ := h
      exact ih c1 c (.call call h0 h1) h2
  rw [C21_debug_partial c (hb calls _ _ .new hc) ?_ σs text, h1]
  intro e
  rw [hks] at e
  simp [Chanoma.new] at e
  subst e
  exact hne (List.eq_nil_of_length_eq_zero hlen.symm)

/-- C22: the constructors are the same as one call on the empty pipeline. -/
theorem C22_constructors (σ : Oracle) (t : Table) :
    Chanoma.preset σ = Chanoma.new.usePreset σ ∧ Chanoma.neologdn σ = Chanoma.new.useNeologdn σ ∧
    Chanoma.fromTable t = Chanoma.new.addTable t := by
  refine ⟨?_, ?_, ?_⟩
  · simp [Chanoma.preset, Chanoma.usePreset, Chanoma.new]
  · simp [Chanoma.neologdn, Chanoma.useNeologdn, Chanoma.new]
  · simp [Chanoma.fromTable, Chanoma.addTable, Chanoma.new]

/-- C22: `normalize_with_positions` returns one record per modifier, in order, and the text of
each is what its modifier makes of the previous one. -/
theorem C22_records (c : Chanoma) (hc : ApiBuilt c) (σs : Nat → Oracle) (text : Str) :
    ∃ rs, c.normalizeWithPositions σs text = .ok ⟨rs⟩ ∧ rs.length = c.modifiers.length ∧
      Chained σs 0 text c.modifiers rs := by
  obtain ⟨rs, h1, h2, -⟩ := pipeline_eq c (apiBuilt_wf hc) σs text
  exact ⟨rs, h2, chained_length h1, h1⟩

/-- Order matters: a table before or after the preset. -/
example : [Call.addTable (Table.fromCorr [⟨c! "a", c! "Ａ"⟩] .new), Call.usePreset Oracle.insertion].foldl
      Call.meaning (c! "aa") = c! "AA" ∧
    [Call.usePreset Oracle.insertion, Call.addTable (Table.fromCorr [⟨c! "a", c! "Ａ"⟩] .new)].foldl
      Call.meaning (c! "aa") = c! "ＡＡ" := by decide +kernel

end Chanoma
