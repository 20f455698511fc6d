import Verif.Props.Compare
/-! # C68: any sequence of presets and neologdns -/

namespace Chanoma

theorem presetMap_idem (t : Str) : (t.map presetFold).map presetFold = t.map presetFold := by
  rw [List.map_map]
  exact List.map_congr_left fun c _ => presetFold_idem c

theorem spec_preset_comm (t : Str) : neologdnSpec (t.map presetFold) = (neologdnSpec t).map presetFold :=
  (neologdn_preset t).trans (preset_neologdn t).symm

/-- A third application of neologdn changes nothing. -/
theorem spec_thrice (t : Str) : neologdnSpec (neologdnSpec (neologdnSpec t)) = neologdnSpec (neologdnSpec t) := by
  obtain ⟨h1, h2⟩ := normal_spec (spec_normal t)
  rw [h1, (normal_spec h2).1, squeeze_idem]

theorem apiBuilt_calls {calls : List Call} {base c : Chanoma} (hb : ApiBuilt base)
    (hc : calls.foldlM Call.run base = .ok c) : ApiBuilt c := by
  induction calls generalizing base with
  | nil => cases hc; exact hb
  | cons call calls ih =>
    rw [List.foldlM_cons, bind_eq_ok] at hc
    obtain ⟨d, h1, h2⟩ := hc
    exact ih (.call call hb h1) h2

theorem normalize_debug {calls : List Call} {base c : Chanoma} (hb : ApiBuilt base)
    (hc : calls.foldlM Call.run base = .ok c) (hne : calls ≠ []) (σs : Nat → Oracle) (debug : Bool)
    (text : Str) : c.normalize σs debug text = c.normalize σs false text := by
  cases debug with
  | false => rfl
  | true =>
    refine C21_debug_partial c (apiBuilt_calls hb hc) ?_ σs text
    obtain ⟨ks, h1, h2⟩ := ((C22_call_order base _).2 c hc).1
    rw [h1]
    intro e
    rw [(List.append_eq_nil_iff.mp e).2] at h2
    exact hne (List.eq_nil_of_length_eq_zero h2.symm)

/-- How often neologdn is added. -/
def neologdnCount : List Call → Nat
  | [] => 0
  | .useNeologdn _ :: calls => neologdnCount calls + 1
  | _ :: calls => neologdnCount calls

/-- Is the preset added? -/
def HasPreset (calls : List Call) : Prop := ∃ σ, Call.usePreset σ ∈ calls

/-- The result of a sequence of calls without tables. -/
def untabledMeaning (preset : Bool) (n : Nat) (t : Str) : Str :=
  let t := match n with
    | 0 => t
    | 1 => neologdnSpec t
    | _ => neologdnSpec (neologdnSpec t)
  if preset then t.map presetFold else t

theorem untabled_neologdn (p : Bool) (n : Nat) (t : Str) :
    untabledMeaning p n (neologdnSpec t) = untabledMeaning p (n + 1) t := by
  match n with
  | 0 => cases p <;> simp [untabledMeaning]
  | 1 => cases p <;> simp [untabledMeaning]
  | n + 2 => cases p <;> simp [untabledMeaning, spec_thrice]

theorem untabled_preset (p : Bool) (n : Nat) (t : Str) :
    untabledMeaning p n (t.map presetFold) = untabledMeaning true n t := by
  match n with
  | 0 => cases p <;> simp only [untabledMeaning, if_true, presetMap_idem] <;> rfl
  | 1 => cases p <;> simp only [untabledMeaning, spec_preset_comm, if_true, presetMap_idem] <;> rfl
  | n + 2 => cases p <;> simp only [untabledMeaning, spec_preset_comm, if_true, presetMap_idem] <;> rfl

open Classical in
theorem untabled_foldl (calls : List Call) (h : ∀ t, Call.addTable t ∉ calls) (t : Str) :
    calls.foldl Call.meaning t = untabledMeaning (decide (HasPreset calls)) (neologdnCount calls) t := by
  induction calls generalizing t with
  | nil =>
    have : ¬ HasPreset [] := fun ⟨_, h⟩ => by cases h
    simp [untabledMeaning, neologdnCount, this]
  | cons call calls ih =>
    have ih := ih fun t ht => h t (List.mem_cons_of_mem _ ht)
    rw [List.foldl_cons, ih]
    cases call with
    | addTable t' => exact absurd (by simp) (h t')
    | usePreset σ =>
      have : HasPreset (Call.usePreset σ :: calls) := ⟨σ, by simp⟩
      rw [decide_eq_true this]
      exact untabled_preset _ _ _
    | useNeologdn σ =>
      have : HasPreset (Call.useNeologdn σ :: calls) ↔ HasPreset calls := by
        constructor
        · rintro ⟨τ, hτ⟩
          rcases List.mem_cons.mp hτ with e | hm
          · cases e
          · exact ⟨τ, hm⟩
        · rintro ⟨τ, hτ⟩; exact ⟨τ, List.mem_cons_of_mem _ hτ⟩
      rw [show decide (HasPreset (Call.useNeologdn σ :: calls)) = decide (HasPreset calls) by
        simp [this]]
      exact untabled_neologdn _ _ _

theorem untabled_min (p : Bool) (n : Nat) (t : Str) :
    untabledMeaning p n t = untabledMeaning p (min n 2) t := by
  match n with
  | 0 => rfl
  | 1 => rfl
  | n + 2 => rw [Nat.min_eq_right (by omega)]; rfl

/-- C68: what a sequence of `use_preset` and `use_neologdn` does depends only on whether the preset
is there at all and on whether neologdn is there never, once or more often. -/
theorem C68_sequences (base c c' : Chanoma) (hbase : ApiBuilt base) (calls calls' : List Call)
    (hc : calls.foldlM Call.run base = .ok c) (hc' : calls'.foldlM Call.run base = .ok c')
    (ht : ∀ t, Call.addTable t ∉ calls ∧ Call.addTable t ∉ calls')
    (hp : HasPreset calls ↔ HasPreset calls')
    (hn : min (neologdnCount calls) 2 = min (neologdnCount calls') 2)
    (σs : Nat → Oracle) (debug : Bool) (text : Str) :
    c.normalize σs debug text = c'.normalize σs debug text := by
  have hnil : ∀ {l l' : List Call}, (HasPreset l ↔ HasPreset l') →
      min (neologdnCount l) 2 = min (neologdnCount l') 2 → (∀ t, Call.addTable t ∉ l') → l = [] → l' = [] := by
    rintro l l' hp hn ht rfl
    cases l' with
    | nil => rfl
    | cons call l' =>
      cases call with
      | addTable t => exact absurd (by simp) (ht t)
      | usePreset σ =>
        obtain ⟨_, h⟩ := hp.mpr ⟨σ, by simp⟩
        cases h
      | useNeologdn σ => simp only [neologdnCount] at hn; omega
  by_cases hz : calls = []
  · have hz' := hnil hp hn (fun t => (ht t).2) hz
    subst hz; subst hz'
    cases hc; cases hc'; rfl
  · have hz' : calls' ≠ [] := fun e => hz (hnil hp.symm hn.symm (fun t => (ht t).1) e)
    rw [normalize_debug hbase hc hz, normalize_debug hbase hc' hz']
    obtain ⟨rs, -, -, h⟩ := pipeline_eq base (apiBuilt_wf hbase) σs text
    rw [((C22_call_order base _).2 c hc).2 σs text _ h,
      ((C22_call_order base _).2 c' hc').2 σs text _ h, untabled_foldl calls fun t => (ht t).1,
      untabled_foldl calls' fun t => (ht t).2, untabled_min _ (neologdnCount calls), hn, ← untabled_min]
    congr 2
    simp [hp]

theorem untabled_distinct : ∀ p q : Bool, ∀ m ∈ [0, 1, 2], ∀ n ∈ [0, 1, 2],
    untabledMeaning p m (c! "＝ー ー") = untabledMeaning q n (c! "＝ー ー") → p = q ∧ m = n := by
  decide +kernel

/-- C68: two such sequences of calls on an empty normaliser make the same of every text if and only if
they agree on whether the preset is there and on whether neologdn is there never, once or more
often. -/
theorem C68_equal_iff (c c' : Chanoma) (calls calls' : List Call)
    (hc : calls.foldlM Call.run Chanoma.new = .ok c) (hc' : calls'.foldlM Call.run Chanoma.new = .ok c')
    (ht : ∀ t, Call.addTable t ∉ calls ∧ Call.addTable t ∉ calls') (σs : Nat → Oracle) :
    (∀ text, c.normalize σs false text = c'.normalize σs false text) ↔
      (HasPreset calls ↔ HasPreset calls') ∧ min (neologdnCount calls) 2 = min (neologdnCount calls') 2 := by
  classical
  constructor
  · intro h
    have h := h (c! "＝ー ー")
    have h0 : Chanoma.new.normalize σs false (c! "＝ー ー") = .ok (c! "＝ー ー") := rfl
    rw [((C22_call_order _ _).2 c hc).2 σs _ _ h0, ((C22_call_order _ _).2 c' hc').2 σs _ _ h0,
      untabled_foldl calls fun t => (ht t).1, untabled_foldl calls' fun t => (ht t).2,
      untabled_min, untabled_min _ (neologdnCount calls')] at h
    have hm : ∀ n, min n 2 ∈ [0, 1, 2] := by intro n; simp; omega
    obtain ⟨h1, h2⟩ := untabled_distinct _ _ _ (hm _) _ (hm _) (Outcome.ok.inj h)
    exact ⟨by simpa using h1, h2⟩
  · rintro ⟨hp, hn⟩ text
    exact C68_sequences _ c c' .new calls calls' hc hc' ht hp hn σs false text

/-- The hypotheses are met: `n p n n` and `p n p n` are the same, `p n` is not. -/
example (σ τ : Oracle) (σs : Nat → Oracle) : ∃ c c' d,
    [Call.useNeologdn σ, .usePreset σ, .useNeologdn τ, .useNeologdn σ].foldlM Call.run Chanoma.new = .ok c ∧
    [Call.usePreset τ, .useNeologdn σ, .usePreset σ, .useNeologdn σ].foldlM Call.run Chanoma.new = .ok c' ∧
    [Call.usePreset τ, .useNeologdn σ].foldlM Call.run Chanoma.new = .ok d ∧
    (∀ debug text, c.normalize σs debug text = c'.normalize σs debug text) ∧
    ¬ ∀ text, c.normalize σs false text = d.normalize σs false text := by
  obtain ⟨c, hc⟩ := (C22_call_order Chanoma.new [Call.useNeologdn σ, .usePreset σ, .useNeologdn τ,
    .useNeologdn σ]).1.mpr (by simp [Call.Accepted])
  obtain ⟨c', hc'⟩ := (C22_call_order Chanoma.new [Call.usePreset τ, .useNeologdn σ, .usePreset σ,
    .useNeologdn σ]).1.mpr (by simp [Call.Accepted])
  obtain ⟨d, hd⟩ := (C22_call_order Chanoma.new [Call.usePreset τ, .useNeologdn σ]).1.mpr
    (by simp [Call.Accepted])
  refine ⟨c, c', d, hc, hc', hd, fun debug text => ?_, fun h => ?_⟩
  · exact C68_sequences _ c c' .new _ _ hc hc' (by simp)
      ⟨fun _ => ⟨τ, by simp⟩, fun _ => ⟨σ, by simp⟩⟩ (by simp [neologdnCount]) σs debug text
  · have := ((C68_equal_iff c d _ _ hc hd (by simp) σs).mp h).2
    simp [neologdnCount] at this

end Chanoma
