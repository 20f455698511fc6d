import Verif.Spec.Done
import Verif.Props.Shorten
/-! # C112: rule maps that are done at once -/

namespace Chanoma

theorem unread_front {k k' v : Str} (hs : k.length = 1 ∨ ¬ CanStartIn v k) {c : Char} {I : List (Option Char)}
    (h : k <+: unread v (some c :: I)) : k <+: unread k' (some c :: I) := by
  rcases hs with hs | hs
  · obtain ⟨d, rfl⟩ := List.length_eq_one_iff.1 hs
    rcases List.prefix_cons_iff.1 h with h5 | ⟨s, e, -⟩
    · simp at h5
    · simp at e
      exact ⟨unread k' I, by simp [unread, e.1]⟩
  · exact unread_prefix hs h

/-- A rule leaves no key that cannot overlap its value, if it is its own key or is not in the text. -/
theorem leaves_none {k k' v : Str} (hk : k ≠ []) (hk' : k' ≠ []) (h1 : ¬ CanStartIn k v) (h2 : k.length = 1 ∨ ¬ CanStartIn v k)
    {t : Str} (ht : k = k' ∨ ¬ k <:+: t) : ¬ k <:+: strReplace k' v t := by
  obtain ⟨I, h3, rfl⟩ := parsed_exists hk' t
  rw [parsed_replace hk' v h3]
  induction I with
  | nil => exact fun h => hk (List.eq_nil_of_infix_nil h)
  | cons x I ih =>
    have ih := ih (parsed_tail h3) <| ht.imp_right fun h hi => h <| by
      cases x with
      | none => exact hi.trans (List.suffix_append _ _).isInfix
      | some c => exact hi.trans (List.suffix_cons _ _).isInfix
    cases x with
    | none => exact fun hi => ih (infix_over h1 hi)
    | some c =>
      intro hi
      rcases List.infix_cons_iff.1 hi with h4 | h4
      · have h5 := unread_front (k' := k') h2 h4
        rcases ht with rfl | ht
        · exact h3.1 h5
        · exact ht h5.isInfix
      · exact ih h4

theorem rules_leave {l : List (Str × Str)} (hk : ∀ r ∈ l, r.1 ≠ []) {k : Str} (hk0 : k ≠ [])
    (h : ∀ r ∈ l, ¬ CanStartIn k r.2 ∧ (k.length = 1 ∨ ¬ CanStartIn r.2 k)) {t : Str} (ht : k ∈ l.map Prod.fst ∨ ¬ k <:+: t) :
    ¬ k <:+: l.foldl (fun acc r => strReplace r.1 r.2 acc) t := by
  induction l generalizing t with
  | nil => simpa using ht
  | cons r l ih =>
    rw [List.foldl_cons]
    have hr := h r (by simp)
    refine ih (fun r hr => hk r (by simp [hr])) (fun r hr => h r (by simp [hr])) ?_
    rcases ht with ht | ht
    · rw [List.map_cons, List.mem_cons] at ht
      rcases ht with ht | ht
      · exact .inr (leaves_none hk0 (hk r (by simp)) hr.1 hr.2 (.inl ht))
      · exact .inl ht
    · exact .inr (leaves_none hk0 (hk r (by simp)) hr.1 hr.2 (.inr ht))

theorem rules_absent {l : List (Str × Str)} (hk : ∀ r ∈ l, r.1 ≠ []) {t : Str}
    (hn : ∀ r ∈ l, ¬ r.1 <:+: t) : l.foldl (fun acc r => strReplace r.1 r.2 acc) t = t := by
  induction l with
  | nil => rfl
  | cons r l ih =>
    rw [List.foldl_cons, strReplace_absent (hk r (by simp)) r.2 (hn r (by simp))]
    exact ih (fun r hr => hk r (by simp [hr])) fun r hr => hn r (by simp [hr])

/-- C112: if no key can overlap a value, its own or another, no key is left in any result, whatever the hash order; keys of one
character need only not be in a value. -/
theorem C112_none_left (x : LigatureTranslator) (h : ValuesApart x.map) (σ : Oracle) (text : Str) :
    ∀ r ∈ x.map, ¬ r.1 <:+: x.modify σ text := by
  intro r hr
  have hm : ∀ r, r ∈ Oracle.iter σ x.map ↔ r ∈ x.map := fun r => (σ.iter_perm x.map).mem_iff
  exact rules_leave (fun r' hr' => (h r' ((hm r').1 hr')).1) (h r hr).1 (fun r' hr' => (h r hr).2 r' ((hm r').1 hr'))
    (.inl (List.mem_map.2 ⟨r, (hm r).2 hr, rfl⟩))

/-- C112: so the map is done at once: a second pass, in whatever order, changes nothing. -/
theorem C112_at_once (x : LigatureTranslator) (h : ValuesApart x.map)
    (seeds : Nat → Nat → Oracle) (text : Str) (n : Nat) :
    (Chanoma.mk [.ligatureTranslator x]).again seeds text (n + 1) = .ok (x.modify (seeds 0 0) text) := by
  have hf : ∀ σs t, (Chanoma.mk [.ligatureTranslator x]).normalize σs false t = .ok (x.modify (σs 0) t) := by
    intro σs t
    simp only [Chanoma.normalize, Bool.not_false, if_true, List.zipIdx_cons, List.zipIdx_nil, List.foldlM_cons,
      List.foldlM_nil, ModifierKind.modify, Outcome.ok_bind, Outcome.pure_eq]
  induction n with
  | zero => exact hf _ _
  | succ n ih =>
    rw [Chanoma.again, ih, Outcome.ok_bind, hf]
    congr 1
    have hm : ∀ r, r ∈ Oracle.iter (seeds (n + 1) 0) x.map ↔ r ∈ x.map := fun r => ((seeds (n + 1) 0).iter_perm x.map).mem_iff
    exact rules_absent (fun r hr => (h r ((hm r).1 hr)).1) fun r hr => C112_none_left x h (seeds 0 0) text r ((hm r).1 hr)

/-- C112: for keys of one character the condition says that no value contains a key. -/
theorem C112_characters (x : LigatureTranslator) (hk : ∀ r ∈ x.map, r.1.length = 1) :
    ValuesApart x.map ↔ ∀ r ∈ x.map, ∀ r' ∈ x.map, ¬ r.1 <:+: r'.2 := by
  have one : ∀ (c : Char) (v : Str), CanStartIn [c] v ↔ [c] <:+: v := by
    intro c v
    constructor
    · rintro ⟨s, h1, h2, h3⟩
      refine List.IsInfix.trans ?_ h2.isInfix
      rcases h3 with h3 | h3
      · have : s = [c] := by
          rcases List.prefix_cons_iff.1 h3 with h4 | ⟨u, rfl, h5⟩
          · exact absurd h4 h1
          · rw [List.prefix_nil.1 h5]
        rw [this]; exact List.infix_refl _
      · exact h3.isInfix
    · rintro ⟨a, b, rfl⟩
      exact ⟨c :: b, by simp, ⟨a, by simp⟩, .inr ⟨b, rfl⟩⟩
  have key : ∀ r ∈ x.map, ∃ c, r.1 = [c] := fun r hr => List.length_eq_one_iff.1 (hk r hr)
  constructor
  · intro h r hr r' hr'
    obtain ⟨c, e⟩ := key r hr
    have := ((h r hr).2 r' hr').1
    rw [e, one] at this
    rw [e]; exact this
  · intro h r hr
    obtain ⟨c, e⟩ := key r hr
    refine ⟨by simp [e], fun r' hr' => ⟨?_, .inl (hk r hr)⟩⟩
    have := h r hr r' hr'
    rw [e] at this ⊢
    rwa [one]

/-- C112: with keys that can overlap a value the number of passes can depend on the order. -/
theorem C112_chain :
    (Chanoma.mk [.ligatureTranslator ⟨[(c! "a", c! "b"), (c! "b", c! "c")]⟩]).again (fun _ _ => .insertion) (c! "a") 1 =
      .ok (c! "c") ∧
    (Chanoma.mk [.ligatureTranslator ⟨[(c! "a", c! "b"), (c! "b", c! "c")]⟩]).again (fun _ _ => .reversed) (c! "a") 1 =
      .ok (c! "b") ∧
    (Chanoma.mk [.ligatureTranslator ⟨[(c! "a", c! "b"), (c! "b", c! "c")]⟩]).again (fun _ _ => .reversed) (c! "a") 2 =
      .ok (c! "c") := ⟨rfl, rfl, rfl⟩

/- Usual rules meet the condition, also if one of them deletes. -/
example : ValuesApart [(c! "㌔", c! "キロ"), (c! "㍻", c! "平成"), (c! "㈱", c! "(株)"), (c! "♪", [])] := by
  unfold ValuesApart; decide
/- So do rules whose keys overlap each other, although their order matters. -/
example : ValuesApart [(c! "ab", c! "x"), (c! "bc", c! "y")] ∧
    LigatureTranslator.modify ⟨[(c! "ab", c! "x"), (c! "bc", c! "y")]⟩ .insertion (c! "abc") = c! "xc" ∧
    LigatureTranslator.modify ⟨[(c! "ab", c! "x"), (c! "bc", c! "y")]⟩ .reversed (c! "abc") = c! "ay" := by
  refine ⟨?_, rfl, rfl⟩
  unfold ValuesApart; decide

end Chanoma
