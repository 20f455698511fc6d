import Verif.Spec.Config
import Verif.Proofs.Pipeline
import Verif.Proofs.File
/-! # Lemmas about configuration files -/

namespace Chanoma

/-! ## Maps built by `collect` -/

theorem collect_get {κ ν : Type} [DecidableEq κ] (l : List (κ × ν)) (m : HMap κ ν) (k : κ) :
    (l.foldl (fun m kv => HMap.insert m kv.1 kv.2) m).get? k =
      ((l.reverse.find? fun p => p.1 = k).map Prod.snd).or (m.get? k) := by
  induction l generalizing m with
  | nil => simp
  | cons a l ih =>
    rw [List.foldl_cons, ih, HMap.get?_insert, List.reverse_cons, List.find?_append]
    cases h : l.reverse.find? fun p => p.1 = k with
    | some p => simp
    | none =>
      by_cases hk : a.1 = k <;> simp [hk]

theorem collect_lastPair (l : List (Char × Char)) : (HMap.collect l).get? = lastPair l := by
  funext c
  unfold HMap.collect lastPair
  rw [collect_get]
  simp [HMap.get?]

theorem insert_perm_new {κ ν : Type} [DecidableEq κ] (m : HMap κ ν) (k : κ) (v : ν)
    (h : k ∉ m.map Prod.fst) : (m.insert k v) = m ++ [(k, v)] := by
  induction m with
  | nil => rfl
  | cons e m ih =>
    obtain ⟨k', v'⟩ := e
    simp only [List.map_cons, List.mem_cons, not_or] at h
    rw [HMap.insert, if_neg (Ne.symm h.1), ih h.2]; rfl

theorem insert_keys {κ ν : Type} [DecidableEq κ] (m : HMap κ ν) (k : κ) (v : ν) (x : κ) :
    x ∈ (m.insert k v).map Prod.fst ↔ x = k ∨ x ∈ m.map Prod.fst := by
  induction m with
  | nil => simp [HMap.insert]
  | cons e m ih =>
    obtain ⟨k', v'⟩ := e
    rw [HMap.insert]
    split
    · rename_i h; subst h; simp
    · rw [List.map_cons, List.mem_cons, ih, List.map_cons, List.mem_cons]
      constructor
      · rintro (h | h | h)
        · exact .inr (.inl h)
        · exact .inl h
        · exact .inr (.inr h)
      · rintro (h | h | h)
        · exact .inr (.inl h)
        · exact .inl h
        · exact .inr (.inr h)

theorem lastRules_keys (l : List (Str × Str)) (k : Str) :
    k ∈ (lastRules l).map Prod.fst ↔ k ∈ l.map Prod.fst := by
  induction l with
  | nil => rfl
  | cons r l ih =>
    rw [lastRules]
    split
    · rename_i h
      rw [ih, List.map_cons, List.mem_cons]
      constructor
      · exact .inr
      · rintro (rfl | h')
        · exact h
        · exact h'
    · simp only [List.map_cons, List.mem_cons, ih]

theorem collect_perm (l : List (Str × Str)) (m : HMap Str Str) (hn : (m.map Prod.fst).Nodup) :
    (l.foldl (fun m kv => HMap.insert m kv.1 kv.2) m).Perm
      (m.filter (fun e => e.1 ∉ l.map Prod.fst) ++ lastRules l) := by
  induction l generalizing m with
  | nil => simp [lastRules]; exact .of_eq (List.filter_eq_self.mpr (by simp)).symm
  | cons r l ih =>
    rw [List.foldl_cons]
    refine (ih _ (insert_nodup m r.1 r.2 hn)).trans ?_
    have h1 := ((insert_perm_old m r.1 r.2 hn).filter (fun e => decide (e.1 ∉ l.map Prod.fst))).append_right
      (lastRules l)
    refine h1.trans ?_
    rw [List.filter_append, List.filter_filter, lastRules]
    have e1 : (m.filter fun a => decide (a.1 ∉ l.map Prod.fst) && decide (a.1 ≠ r.1)) =
        m.filter fun e => e.1 ∉ (r :: l).map Prod.fst := by
      apply List.filter_congr
      intro x _
      rw [Bool.eq_iff_iff]
      simp only [Bool.and_eq_true, decide_eq_true_iff, List.map_cons, List.mem_cons, not_or]
      exact And.comm
    rw [e1]
    by_cases hr : r.1 ∈ l.map Prod.fst
    · rw [if_pos hr, List.filter_cons_of_neg (by simpa using hr)]
      simp
    · rw [if_neg hr, List.filter_cons_of_pos (by simpa using hr)]
      simp

theorem collect_rules (l : List (Str × Str)) : (HMap.collect l).Perm (lastRules l) := by
  have := collect_perm l [] (by simp)
  simpa [HMap.collect] using this

theorem replaceAll_str (k v t : Str) : ReplacedAll k v t (strReplace k v t) := by
  unfold ReplacedAll
  split
  · rename_i h; subst h; rfl
  · rename_i h; exact strReplace_replaced h v t

theorem replacedInTurn_fold (l : List (Str × Str)) (t : Str) :
    ReplacedInTurn l t (l.foldl (fun text e => strReplace e.1 e.2 text) t) := by
  induction l generalizing t with
  | nil => exact .nil t
  | cons e l ih => exact .cons (replaceAll_str e.1 e.2 t) (ih _)

/-! ## Modifiers do what their description says -/

/-- The modifier built for a step. -/
def Realizes (m : ModifierKind) (s : Step) : Prop :=
  m.WF ∧ ∀ τ t, ∃ o, m.modify τ t = .ok o ∧ s.Makes t o

theorem realizes_convert (l : List (Char × Char)) :
    Realizes (.characterConverter (.fromMap (HMap.collect l))) (.convert l) :=
  ⟨trivial, fun τ t => ⟨_, modify_eq _ τ t, by
    show substitute (HMap.collect l).get? t = substitute (lastPair l) t
    rw [collect_lastPair]⟩⟩

theorem realizes_eliminate (l : List Char) :
    Realizes (.characterEliminator (.fromChars l)) (.eliminate l) :=
  ⟨trivial, fun τ t => ⟨_, rfl, by
    show CharacterEliminator.modify _ t = _
    simp only [eliminator_eq, mem_fromChars]⟩⟩

theorem realizes_reduce (c : Char) : Realizes (.consecutiveCharacterReducer ⟨c⟩) (.reduce c) :=
  ⟨trivial, fun _ t => ⟨_, rfl, reducer_eq _ t⟩⟩

theorem realizes_ligature (l : List (Str × Str)) :
    Realizes (.ligatureTranslator ⟨HMap.collect l⟩) (.ligature l) :=
  ⟨collect_nodup l, fun τ t => ⟨_, rfl, _, (τ.iter_perm _).trans (collect_rules l),
    replacedInTurn_fold _ t⟩⟩

theorem realizes_spaces : Realizes .dottedSpaceEliminator .spaces :=
  ⟨trivial, fun _ t => ⟨_, rfl, dotted_eq t⟩⟩

theorem realizes_trim : Realizes .trim .trim :=
  ⟨trivial, fun τ t => ⟨_, rfl, by
    obtain ⟨a, b, h, h1, h2⟩ := trim_eq t
    exact ⟨h1, h2, a, b, h⟩⟩⟩

theorem realizes_neologdn {σ : Oracle} {x : Neologdn} (hx : Neologdn.new σ = .ok x) :
    Realizes (.neologdn x) .neologdn := by
  refine ⟨⟨σ, hx⟩, fun τ t => ?_⟩
  obtain ⟨x', h1, -, h2, -⟩ := neologdn_new σ
  rw [h1] at hx; cases hx
  exact ⟨_, h2 τ t, rfl⟩

/-! ## YAML entries -/

theorem mapM_ok_map {α β γ : Type} {f : β → Outcome γ} {g : α → β} {h : α → γ} (l : List α)
    (hf : ∀ a, f (g a) = .ok (h a)) : (l.map g).mapM f = .ok (l.map h) := by
  induction l with
  | nil => rfl
  | cons a l ih =>
    rw [List.map_cons, List.mapM_cons, hf, ih]; rfl

theorem describes_ok {k v : YValue} {s : Step} (h : Describes k v s) (σ : Oracle) :
    ∃ m, ModifierKind.fromYaml σ k v = .ok m ∧ Realizes m s := by
  cases h with
  | convert l =>
    have e : CharacterConverter.fromYaml (.mapping
        (l.map fun e => (.string (e.1.1 :: e.1.2), .string (e.2.1 :: e.2.2)))) =
        ((l.map fun e => (YValue.string (e.1.1 :: e.1.2), YValue.string (e.2.1 :: e.2.2))).mapM (fun e => do
          let k ← yamlChar e.1
          let v ← yamlChar e.2
          return (k, v)) >>= fun l => .ok (.fromMap (HMap.collect l))) := rfl
    rw [mapM_ok_map (h := fun e : (Char × Str) × (Char × Str) => (e.1.1, e.2.1)) l (by intro a; rfl)] at e
    refine ⟨_, ?_, realizes_convert _⟩
    show (do return ModifierKind.characterConverter (← CharacterConverter.fromYaml _) : Outcome _) = _
    rw [e]
    rfl
  | eliminate l =>
    have e : CharacterEliminator.fromYaml (.sequence (l.map fun e => .string (e.1 :: e.2))) =
        ((l.map fun e => YValue.string (e.1 :: e.2)).mapM yamlChar >>= fun l => .ok (.fromChars l)) := rfl
    rw [mapM_ok_map (h := fun e : Char × Str => e.1) l (by intro a; rfl)] at e
    refine ⟨_, ?_, realizes_eliminate _⟩
    show (do return ModifierKind.characterEliminator (← CharacterEliminator.fromYaml _) : Outcome _) = _
    rw [e]
    rfl
  | reduce c s => exact ⟨_, rfl, realizes_reduce c⟩
  | ligature l =>
    have e : LigatureTranslator.fromYaml (.mapping (l.map fun r => (.string r.1, .string r.2))) =
        ((l.map fun r => (YValue.string r.1, YValue.string r.2)).mapM (fun e => do
          let k ← unwrap e.1.asStr
          let v ← unwrap e.2.asStr
          return (k, v)) >>= fun l => .ok ⟨HMap.collect l⟩) := rfl
    rw [mapM_ok_map (h := fun e : Str × Str => e) l (by intro a; rfl), List.map_id'] at e
    refine ⟨_, ?_, realizes_ligature _⟩
    show (do return ModifierKind.ligatureTranslator (← LigatureTranslator.fromYaml _) : Outcome _) = _
    rw [e]
    rfl
  | spaces => exact ⟨_, rfl, realizes_spaces⟩
  | trim => exact ⟨_, rfl, realizes_trim⟩
  | neologdn =>
    obtain ⟨x, h1, -⟩ := neologdn_new σ
    refine ⟨.neologdn x, ?_, realizes_neologdn h1⟩
    show (do return ModifierKind.neologdn (← Neologdn.new σ) : Outcome _) = _
    rw [h1]; rfl

theorem rejected_err {k v : YValue} {msg : Str} (h : Rejected k v msg) (σ : Oracle) :
    ModifierKind.fromYaml σ k v = .err (.modifierKindParse msg) := by
  cases h with
  | @unknown name v h1 h2 =>
    simp only [plainNames, parameterNames, List.mem_cons, List.not_mem_nil, or_false, not_or] at h1 h2
    unfold ModifierKind.fromYaml
    simp only [YValue.asStr, unwrap, Outcome.ok_bind]
    rw [if_neg h2.1, if_neg h2.2.1, if_neg h2.2.2.1, if_neg h2.2.2.2, if_neg h1.1, if_neg h1.2.1,
      if_neg h1.2.2]
  | @parameter name v h1 h2 =>
    have hn : v.isNull = false := by cases v <;> first | exact absurd rfl h2 | rfl
    simp only [plainNames, List.mem_cons, List.not_mem_nil, or_false] at h1
    rcases h1 with rfl | rfl | rfl
    · show (do dottedFromYaml v; return ModifierKind.dottedSpaceEliminator : Outcome _) = _
      rw [dottedFromYaml, hn]; rfl
    · show (do trimFromYaml v; return ModifierKind.trim : Outcome _) = _
      rw [trimFromYaml, hn]; rfl
    · show (do return ModifierKind.neologdn (← Neologdn.fromYaml σ v) : Outcome _) = _
      rw [Neologdn.fromYaml, hn]; rfl

/-- A monadic map over entries that either panic or have a certain shape. -/
theorem mapM_not_panic {α β γ : Type} {f : β → Outcome γ} {g : α → β}
    (hf : ∀ b, f b = .panic ∨ ∃ a c, b = g a ∧ f b = .ok c) (l : List β) :
    l.mapM f = .panic ∨ ∃ as : List α, l = as.map g := by
  induction l with
  | nil => exact .inr ⟨[], rfl⟩
  | cons b l ih =>
    rw [List.mapM_cons]
    rcases hf b with h | ⟨a, c, rfl, h⟩
    · left; rw [h]; rfl
    · rcases ih with hl | ⟨as, rfl⟩
      · left; rw [h, hl]; rfl
      · exact .inr ⟨a :: as, rfl⟩

theorem yamlChar_cases (v : YValue) :
    yamlChar v = .panic ∨ ∃ c s, v = .string (c :: s) ∧ yamlChar v = .ok c := by
  cases v with
  | string s =>
    cases s with
    | nil => exact .inl rfl
    | cons c s => exact .inr ⟨c, s, rfl, rfl⟩
  | _ => exact .inl rfl

/-- Every outcome of reading an entry. -/
theorem fromYaml_cases (σ : Oracle) (k v : YValue) :
    (∃ s, Describes k v s) ∨ (∃ msg, Rejected k v msg) ∨ ModifierKind.fromYaml σ k v = .panic := by
  cases k with
  | string name =>
    by_cases hpl : name ∈ plainNames
    · by_cases hv : v = .null
      · subst hv
        left
        simp only [plainNames, List.mem_cons, List.not_mem_nil, or_false] at hpl
        rcases hpl with rfl | rfl | rfl
        · exact ⟨_, .spaces⟩
        · exact ⟨_, .trim⟩
        · exact ⟨_, .neologdn⟩
      · exact .inr (.inl ⟨_, .parameter hpl hv⟩)
    · by_cases hpa : name ∈ parameterNames
      · simp only [parameterNames, List.mem_cons, List.not_mem_nil, or_false] at hpa
        rcases hpa with rfl | rfl | rfl | rfl
        · cases v with
          | mapping l =>
            have e : ModifierKind.fromYaml σ (.string (c! "character_converter")) (.mapping l) =
                (do return ModifierKind.characterConverter (← CharacterConverter.fromYaml (.mapping l))) := rfl
            have e2 : CharacterConverter.fromYaml (.mapping l) = (l.mapM (fun e => do
                let k ← yamlChar e.1
                let v ← yamlChar e.2
                return (k, v)) >>= fun l => .ok (.fromMap (HMap.collect l))) := rfl
            rcases mapM_not_panic (f := fun (e : YValue × YValue) => (do
                let k ← yamlChar e.1
                let v ← yamlChar e.2
                return (k, v) : Outcome (Char × Char)))
              (g := fun e : (Char × Str) × (Char × Str) =>
                (YValue.string (e.1.1 :: e.1.2), YValue.string (e.2.1 :: e.2.2))) (fun b => by
                obtain ⟨b1, b2⟩ := b
                rcases yamlChar_cases b1 with h1 | ⟨c, s, rfl, h1⟩
                · left; simp [h1]
                · rcases yamlChar_cases b2 with h2 | ⟨d, t, rfl, h2⟩
                  · left; simp [h1, h2]
                  · exact .inr ⟨((c, s), (d, t)), (c, d), rfl, rfl⟩) l with h | ⟨as, rfl⟩
            · right; right; rw [e, e2, h]; rfl
            · exact .inl ⟨_, .convert as⟩
          | _ => exact .inr (.inr rfl)
        · cases v with
          | sequence l =>
            have e : ModifierKind.fromYaml σ (.string (c! "character_eliminator")) (.sequence l) =
                (do return ModifierKind.characterEliminator (← CharacterEliminator.fromYaml (.sequence l))) := rfl
            have e2 : CharacterEliminator.fromYaml (.sequence l) = (l.mapM yamlChar >>=
                fun l => .ok (.fromChars l)) := rfl
            rcases mapM_not_panic (f := yamlChar)
              (g := fun e : Char × Str => YValue.string (e.1 :: e.2)) (fun b => by
                rcases yamlChar_cases b with h1 | ⟨c, s, rfl, h1⟩
                · exact .inl h1
                · exact .inr ⟨(c, s), c, rfl, rfl⟩) l with h | ⟨as, rfl⟩
            · right; right; rw [e, e2, h]; rfl
            · exact .inl ⟨_, .eliminate as⟩
          | _ => exact .inr (.inr rfl)
        · cases v with
          | string s =>
            cases s with
            | nil => exact .inr (.inr rfl)
            | cons c s => exact .inl ⟨_, .reduce c s⟩
          | _ => exact .inr (.inr rfl)
        · cases v with
          | mapping l =>
            have e : ModifierKind.fromYaml σ (.string (c! "ligature_translator")) (.mapping l) =
                (do return ModifierKind.ligatureTranslator (← LigatureTranslator.fromYaml (.mapping l))) := rfl
            have e2 : LigatureTranslator.fromYaml (.mapping l) = (l.mapM (fun e => do
                let k ← unwrap e.1.asStr
                let v ← unwrap e.2.asStr
                return (k, v)) >>= fun l => .ok ⟨HMap.collect l⟩) := rfl
            rcases mapM_not_panic (f := fun (e : YValue × YValue) => (do
                let k ← unwrap e.1.asStr
                let v ← unwrap e.2.asStr
                return (k, v) : Outcome (Str × Str)))
              (g := fun e : Str × Str => (YValue.string e.1, YValue.string e.2)) (fun b => by
                obtain ⟨b1, b2⟩ := b
                cases b1 with
                | string s =>
                  cases b2 with
                  | string t => exact .inr ⟨(s, t), (s, t), rfl, rfl⟩
                  | _ => exact .inl rfl
                | _ => exact .inl rfl) l with h | ⟨as, rfl⟩
            · right; right; rw [e, e2, h]; rfl
            · exact .inl ⟨_, .ligature as⟩
          | _ => exact .inr (.inr rfl)
      · exact .inr (.inl ⟨_, .unknown v hpl hpa⟩)
  | _ => exact .inr (.inr rfl)

/-! ## Fields of documents -/

theorem asStr_eq (v : YValue) (name : Str) : (v.asStr == some name) = true ↔ v = .string name := by
  cases v <;> simp [YValue.asStr]

theorem get_some {data : YValue} {name : Str} {v : YValue} :
    data.get name = some v ↔ HasField data name v := by
  constructor
  · intro h
    cases data with
    | mapping l =>
      simp only [YValue.get, Option.map_eq_some_iff] at h
      obtain ⟨e, he, rfl⟩ := h
      obtain ⟨h1, pre, post, rfl, h2⟩ := List.find?_eq_some_iff_append.mp he
      obtain ⟨k, v⟩ := e
      have hk : k = .string name := (asStr_eq _ _).mp h1
      subst hk
      refine ⟨pre, post, rfl, fun e he hc => ?_⟩
      have := h2 e he
      rw [hc] at this
      simp [YValue.asStr] at this
    | _ => cases h
  · rintro ⟨pre, post, rfl, h⟩
    simp only [YValue.get, Option.map_eq_some_iff]
    refine ⟨_, List.find?_eq_some_iff_append.mpr ⟨by simp [YValue.asStr], pre, post, rfl, ?_⟩, rfl⟩
    intro e he
    have := h e he
    have h2 := mt (asStr_eq _ _).mp this
    simpa using h2

theorem get_none {data : YValue} {name : Str} : data.get name = none ↔ NoField data name := by
  constructor
  · intro h l hl e he hc
    subst hl
    simp only [YValue.get, Option.map_eq_none_iff, List.find?_eq_none] at h
    exact h e he ((asStr_eq _ _).mpr hc)
  · intro h
    cases data with
    | mapping l =>
      simp only [YValue.get, Option.map_eq_none_iff, List.find?_eq_none]
      intro e he hc
      exact h l rfl e he ((asStr_eq _ _).mp hc)
    | _ => rfl

theorem HasField.unique {data : YValue} {name : Str} {v v' : YValue} (h : HasField data name v)
    (h' : HasField data name v') : v = v' := by
  rw [← get_some] at h h'
  rw [h] at h'; exact Option.some.inj h'

theorem HasField.not_noField {data : YValue} {name : Str} {v : YValue} (h : HasField data name v) :
    ¬ NoField data name := by
  rw [← get_some] at h; rw [← get_none, h]; simp

theorem field_cases (data : YValue) (name : Str) :
    NoField data name ∨ ∃ v, HasField data name v := by
  cases h : data.get name with
  | none => exact .inl (get_none.mp h)
  | some v => exact .inr ⟨v, get_some.mp h⟩

/-! ## Items of documents -/

theorem entryItems_ok {k v : YValue} {is : List Item} (h : EntryItems k v is) :
    yamlEntryItems k v = .ok is := by
  cases h with
  | one to f => rfl
  | many to fs => exact yamlEntry_sequence to fs
  | none => rfl

theorem entryItems_cases (k v : YValue) :
    yamlEntryItems k v = .panic ∨ ∃ is, EntryItems k v is := by
  cases v with
  | string f =>
    cases k with
    | string to => exact .inr ⟨_, .one to f⟩
    | _ => exact .inl rfl
  | sequence l =>
    cases l with
    | nil => exact .inr ⟨_, .none k⟩
    | cons v l =>
      have e : yamlEntryItems k (.sequence (v :: l)) = (v :: l).mapM (fun v => do
        let f ← unwrap v.asStr
        let t ← unwrap k.asStr
        return (⟨f, t⟩ : Item)) := rfl
      cases k with
      | string to =>
        rcases mapM_not_panic (f := fun v : YValue => (do
          let f ← unwrap v.asStr
          let t ← unwrap (YValue.string to).asStr
          return (⟨f, t⟩ : Item) : Outcome Item)) (g := YValue.string) (fun b => by
            cases b with
            | string s => exact .inr ⟨s, _, rfl, rfl⟩
            | _ => exact .inl rfl) (v :: l) with h | ⟨fs, h⟩
        · exact .inl (e.trans h)
        · right
          rw [h]
          exact ⟨_, .many to fs⟩
      | _ =>
        left
        rw [e, List.mapM_cons]
        cases v <;> rfl
  | _ => exact .inl rfl

theorem entriesItems_ok {l : List (YValue × YValue)} {is : List Item} (h : EntriesItems l is)
    (acc : List Item) :
    l.foldlM (fun items e => do return items ++ (← yamlEntryItems e.1 e.2)) acc = .ok (acc ++ is) := by
  induction h generalizing acc with
  | nil => simp
  | @cons k v is js l h _ ih =>
    rw [List.foldlM_cons, entryItems_ok h]
    refine (ih _).trans ?_
    simp

theorem entriesItems_cases (l : List (YValue × YValue)) :
    (∀ acc : List Item, l.foldlM (fun items e => do return items ++ (← yamlEntryItems e.1 e.2)) acc =
      .panic) ∨ ∃ is, EntriesItems l is := by
  induction l with
  | nil => exact .inr ⟨_, .nil⟩
  | cons e l ih =>
    rcases entryItems_cases e.1 e.2 with h | ⟨is, h⟩
    · left; intro acc; rw [List.foldlM_cons, h]; rfl
    · rcases ih with ih | ⟨js, ih⟩
      · left; intro acc
        rw [List.foldlM_cons, entryItems_ok h]
        exact ih _
      · exact .inr ⟨_, .cons h ih⟩

theorem docItems_ok {data : YValue} {items : List Item} (h : DocItems data items) :
    yamlItems data = .ok items := by
  rcases h with ⟨h, rfl⟩ | ⟨l, h, hi⟩
  · rw [← get_none] at h
    unfold yamlItems; rw [h]
  · rw [← get_some] at h
    unfold yamlItems; rw [h]
    exact (entriesItems_ok hi []).trans rfl

theorem docItems_cases (data : YValue) :
    yamlItems data = .panic ∨ ∃ items, DocItems data items := by
  rcases field_cases data (c! "items") with h | ⟨v, h⟩
  · exact .inr ⟨_, .inl ⟨h, rfl⟩⟩
  · have hg := get_some.mpr h
    cases v with
    | mapping l =>
      rcases entriesItems_cases l with hl | ⟨is, hl⟩
      · left; unfold yamlItems; rw [hg]; exact hl []
      · exact .inr ⟨_, .inr ⟨l, h, hl⟩⟩
    | _ => left; unfold yamlItems; rw [hg]; rfl

/-! ## Modifiers of documents -/

/-- Modifiers in the order of their steps. -/
inductive RealizesAll : List ModifierKind → List Step → Prop
  | nil : RealizesAll [] []
  | cons {m ms s ss} : Realizes m s → RealizesAll ms ss → RealizesAll (m :: ms) (s :: ss)

theorem RealizesAll.length {ms ss} (h : RealizesAll ms ss) : ms.length = ss.length := by
  induction h with
  | nil => rfl
  | cons _ _ ih => simp [ih]

theorem RealizesAll.wf {ms ss} (h : RealizesAll ms ss) : ∀ m ∈ ms, m.WF := by
  induction h with
  | nil => simp
  | cons h _ ih =>
    intro m hm
    rcases List.mem_cons.mp hm with rfl | hm
    · exact h.1
    · exact ih m hm

theorem describesAll_ok {l : List (YValue × YValue)} {ss : List Step} (h : DescribesAll l ss)
    (σ : Oracle) (rest : List (YValue × YValue)) (acc : List ModifierKind) :
    ∃ ms, RealizesAll ms ss ∧
      (l ++ rest).foldlM (fun ms e => do return ms ++ [← ModifierKind.fromYaml σ e.1 e.2]) acc =
        rest.foldlM (fun ms e => do return ms ++ [← ModifierKind.fromYaml σ e.1 e.2]) (acc ++ ms) := by
  induction h generalizing acc with
  | nil => exact ⟨[], .nil, by simp⟩
  | @cons k v s l ss h _ ih =>
    obtain ⟨m, hm, hr⟩ := describes_ok h σ
    obtain ⟨ms, hms, he⟩ := ih (acc ++ [m])
    refine ⟨m :: ms, .cons hr hms, ?_⟩
    rw [List.cons_append, List.foldlM_cons, hm]
    refine he.trans ?_
    simp

theorem describesAll_split (σ : Oracle) (l : List (YValue × YValue)) :
    (∃ ss, DescribesAll l ss) ∨ ∃ pre ss k v post, l = pre ++ (k, v) :: post ∧ DescribesAll pre ss ∧
      ((∃ msg, Rejected k v msg) ∨ ModifierKind.fromYaml σ k v = .panic) := by
  induction l with
  | nil => exact .inl ⟨_, .nil⟩
  | cons e l ih =>
    obtain ⟨k, v⟩ := e
    rcases fromYaml_cases σ k v with ⟨s, h⟩ | h
    · rcases ih with ⟨ss, ih⟩ | ⟨pre, ss, k', v', post, rfl, h1, h2⟩
      · exact .inl ⟨_, .cons h ih⟩
      · exact .inr ⟨(k, v) :: pre, _, k', v', post, rfl, .cons h h1, h2⟩
    · exact .inr ⟨[], [], k, v, l, rfl, .nil, h⟩

theorem docSteps_ok {data : YValue} {ss : List Step} (h : DocSteps data ss) (σ : Oracle) :
    ∃ ms, RealizesAll ms ss ∧ yamlModifiers σ data = .ok ms := by
  rcases h with ⟨h, rfl⟩ | ⟨l, h, hi⟩
  · rw [← get_none] at h
    exact ⟨[], .nil, by unfold yamlModifiers; rw [h]⟩
  · rw [← get_some] at h
    obtain ⟨ms, h1, h2⟩ := describesAll_ok hi σ [] []
    refine ⟨ms, h1, ?_⟩
    unfold yamlModifiers; rw [h]
    rw [List.append_nil] at h2
    exact h2.trans (by simp)

theorem docRejected_err {data : YValue} {msg : Str} (h : DocRejected data msg) (σ : Oracle) :
    yamlModifiers σ data = .err (.modifierKindParse msg) := by
  obtain ⟨pre, ss, k, v, post, h, h1, h2⟩ := h
  obtain ⟨ms, -, h3⟩ := describesAll_ok h1 σ ((k, v) :: post) []
  have hm := rejected_err h2 σ
  unfold yamlModifiers
  rw [get_some.mpr h]
  refine h3.trans ?_
  rw [List.foldlM_cons, hm]; rfl

theorem docModifiers_cases (σ : Oracle) (data : YValue) :
    (∃ ss, DocSteps data ss) ∨ (∃ msg, DocRejected data msg) ∨ yamlModifiers σ data = .panic := by
  rcases field_cases data (c! "modifiers") with h | ⟨v, h⟩
  · exact .inl ⟨_, .inl ⟨h, rfl⟩⟩
  · have hg := get_some.mpr h
    cases v with
    | mapping l =>
      rcases describesAll_split σ l with ⟨ss, hs⟩ | ⟨pre, ss, k, v, post, rfl, h1, h2⟩
      · exact .inl ⟨_, .inr ⟨l, h, hs⟩⟩
      · rcases h2 with h2 | h2
        · exact .inr (.inl (h2.imp fun msg h2 => ⟨pre, ss, k, v, post, h, h1, h2⟩))
        · right; right
          obtain ⟨ms, -, h3⟩ := describesAll_ok h1 σ ((k, v) :: post) []
          unfold yamlModifiers
          rw [hg]
          refine h3.trans ?_
          rw [List.foldlM_cons, h2]; rfl
    | _ => right; right; unfold yamlModifiers; rw [hg]; rfl

/-! ## Running the modifiers -/

theorem realizes_run {ms : List ModifierKind} {ss : List Step} (h : RealizesAll ms ss)
    (σs : Nat → Oracle) (i : Nat) (t : Str) :
    ∃ o, (ms.zipIdx i).foldlM (fun acc m => m.1.modify (σs m.2) acc) t = .ok o ∧ StepsMake ss t o := by
  induction h generalizing i t with
  | nil => exact ⟨t, rfl, .nil t⟩
  | cons h _ ih =>
    obtain ⟨o, h1, h2⟩ := h.2 (σs i) t
    obtain ⟨o', h3, h4⟩ := ih (i + 1) o
    refine ⟨o', ?_, .cons h2 h4⟩
    rw [List.zipIdx_cons, List.foldlM_cons]
    simp only [h1, Outcome.ok_bind]
    exact h3

/-! ## Whole files -/

/-- The file holds the YAML document. -/
def YamlFile (w : World) (path : OsStr) (data : YValue) : Prop :=
  ∃ s, w.entry path = some (.file s) ∧ w.parseYaml s = some data

theorem yamlFile_read {w : World} {path : OsStr} {data : YValue} (h : YamlFile w path data) :
    readYaml w path = .ok data := by
  obtain ⟨s, h1, h2⟩ := h
  simp [readYaml, h1, h2]

theorem loadYaml_eq {σ : Oracle} {w : World} {path : OsStr} {data : YValue} (h : YamlFile w path data)
    (hext : FileExtension.fromPath path = .ok .yaml) :
    Configuration.loadFileWithExt σ w path = (do
      let items ← yamlItems data
      let conv ← CharacterConverter.fromTables [Table.fromCorr items (.configurationFile path)]
      let ms ← yamlModifiers σ data
      return ms ++ [.characterConverter conv]) := by
  unfold Configuration.loadFileWithExt Configuration.loadItemsToCharacterConverter
    Configuration.loadModifiers tableFromYamlPath modifiersFromYamlPath
  simp [hext, yamlFile_read h]

theorem loadYaml_ok {σ : Oracle} {w : World} {path : OsStr} {data : YValue} (h : YamlFile w path data)
    (hext : FileExtension.fromPath path = .ok .yaml) {items : List Item} (hi : DocItems data items)
    (hc : CellsNonEmpty items) {ss : List Step} (hs : DocSteps data ss) :
    ∃ ms x, RealizesAll ms ss ∧ x.itemsMap.get? = itemSubst items ∧
      Configuration.loadFileWithExt σ w path = .ok (ms ++ [.characterConverter x]) := by
  obtain ⟨ms, h1, h2⟩ := docSteps_ok hs σ
  obtain ⟨x, h3, h4⟩ := fromTables_one_ok (Table.fromCorr items (.configurationFile path)) hc
  refine ⟨ms, x, h1, h4, ?_⟩
  rw [loadYaml_eq h hext, docItems_ok hi, Outcome.ok_bind, h3, h2]
  rfl

theorem loadYaml_err {σ : Oracle} {w : World} {path : OsStr} {data : YValue} {msg : Str}
    (h : YamlFile w path data)
    (hext : FileExtension.fromPath path = .ok .yaml) (hi : DocTable data) (hr : DocRejected data msg) :
    Configuration.loadFileWithExt σ w path = .err (.modifierKindParse msg) := by
  obtain ⟨items, hi, hc⟩ := hi
  have h2 := docRejected_err hr σ
  obtain ⟨x, h3, h4⟩ := fromTables_one_ok (Table.fromCorr items (.configurationFile path)) hc
  rw [loadYaml_eq h hext, docItems_ok hi, Outcome.ok_bind, h3, h2]
  rfl

theorem loadYaml_panic_items {σ : Oracle} {w : World} {path : OsStr} {data : YValue}
    (h : YamlFile w path data) (hext : FileExtension.fromPath path = .ok .yaml)
    (hi : ¬ DocTable data) : Configuration.loadFileWithExt σ w path = .panic := by
  rw [loadYaml_eq h hext]
  rcases docItems_cases data with hp | ⟨items, hi'⟩
  · rw [hp]; rfl
  · rw [docItems_ok hi', Outcome.ok_bind,
      fromTables_one_panic (Table.fromCorr items (.configurationFile path)) (fun hc => hi ⟨items, hi', hc⟩)]
    rfl

theorem loadYaml_panic_modifiers {σ : Oracle} {w : World} {path : OsStr} {data : YValue}
    (h : YamlFile w path data) (hext : FileExtension.fromPath path = .ok .yaml)
    (hs : ¬ ∃ ss, DocSteps data ss) (hr : ¬ ∃ msg, DocRejected data msg) :
    Configuration.loadFileWithExt σ w path = .panic := by
  by_cases hi : DocTable data
  · obtain ⟨items, hi, hc⟩ := hi
    obtain ⟨x, h3, h4⟩ := fromTables_one_ok (Table.fromCorr items (.configurationFile path)) hc
    rcases docModifiers_cases σ data with h' | h' | h'
    · exact absurd h' hs
    · exact absurd h' hr
    · rw [loadYaml_eq h hext, docItems_ok hi, Outcome.ok_bind, h3, h']
      rfl
  · exact loadYaml_panic_items h hext hi

theorem DocItems.unique {data : YValue} {a b : List Item} (h : DocItems data a) (h' : DocItems data b) :
    a = b := by
  have h1 := docItems_ok h
  rw [docItems_ok h'] at h1
  cases h1; rfl

/-! ## CSV files -/

theorem tableFromCsv_rows {w : World} {path : OsStr} {b : List UInt8} {rows : List (List Str)}
    (h : w.entry path = some (.file b)) (hr : CsvRows b rows) :
    tableFromCsvPath w path =
      .ok (Table.fromCorr (rows.flatMap rowItems) (.configurationFile path)) := by
  rcases tableFromCsv_cases w path b h with ⟨rows', h1, h2⟩ | ⟨h1, -⟩
  · rw [h2, hr.unique h1]
  · exact absurd ⟨rows, hr⟩ h1

theorem loadCsv_eq {σ : Oracle} {w : World} {path : OsStr} {b : List UInt8} {rows : List (List Str)}
    (h : w.entry path = some (.file b)) (hr : CsvRows b rows)
    (hext : FileExtension.fromPath path = .ok .csv) :
    Configuration.loadFileWithExt σ w path = (do
      let conv ← CharacterConverter.fromTables
        [Table.fromCorr (rows.flatMap rowItems) (.configurationFile path)]
      return [.characterConverter conv]) := by
  unfold Configuration.loadFileWithExt Configuration.loadItemsToCharacterConverter
    Configuration.loadModifiers
  simp [hext, tableFromCsv_rows h hr]

theorem loadCsv_ok {σ : Oracle} {w : World} {path : OsStr} {b : List UInt8} {rows : List (List Str)}
    (h : w.entry path = some (.file b)) (hr : CsvRows b rows)
    (hext : FileExtension.fromPath path = .ok .csv)
    (hc : CellsNonEmpty (rows.flatMap rowItems)) :
    ∃ x : CharacterConverter, x.itemsMap.get? = itemSubst (rows.flatMap rowItems) ∧
      Configuration.loadFileWithExt σ w path = .ok [.characterConverter x] := by
  obtain ⟨x, h3, h4⟩ := fromTables_one_ok
    (Table.fromCorr (rows.flatMap rowItems) (.configurationFile path)) hc
  exact ⟨x, h4, by rw [loadCsv_eq h hr hext, h3]; rfl⟩

theorem loadCsv_panic {σ : Oracle} {w : World} {path : OsStr} {b : List UInt8} {rows : List (List Str)}
    (h : w.entry path = some (.file b)) (hr : CsvRows b rows)
    (hext : FileExtension.fromPath path = .ok .csv)
    (hc : ¬ CellsNonEmpty (rows.flatMap rowItems)) :
    Configuration.loadFileWithExt σ w path = .panic := by
  rw [loadCsv_eq h hr hext, fromTables_one_panic
    (Table.fromCorr (rows.flatMap rowItems) (.configurationFile path)) hc]
  rfl

theorem rows_nonempty_iff (rs : List (List Str)) :
    CellsNonEmpty (rs.flatMap rowItems) ↔ ∀ r ∈ rs, 2 ≤ r.length → [] ∉ r := by
  simp only [CellsNonEmpty, List.mem_flatMap]
  constructor
  · intro h r hr hlen hmem
    obtain ⟨l, t, rfl⟩ : ∃ l t, r = l ++ [t] := by
      rcases List.eq_nil_or_concat r with rfl | ⟨l, t, h⟩
      · simp at hlen
      · exact ⟨l, t, by simpa using h⟩
    have hrow : ∀ f ∈ l, (⟨f, t⟩ : Item) ∈ rowItems (l ++ [t]) := by
      intro f hf
      unfold rowItems
      rw [List.getLast?_concat, List.dropLast_concat]
      exact List.mem_map.mpr ⟨f, hf, rfl⟩
    rcases List.mem_append.mp hmem with hm | hm
    · exact (h _ ⟨_, hr, hrow _ hm⟩).1 rfl
    · simp at hm; subst hm
      cases l with
      | nil => simp at hlen
      | cons f l => exact (h _ ⟨_, hr, hrow f (by simp)⟩).2 rfl
  · rintro h i ⟨r, hr, hi⟩
    unfold rowItems at hi
    split at hi
    · rename_i t ht
      obtain ⟨l, rfl⟩ := List.getLast?_eq_some_iff.mp ht
      rw [List.dropLast_concat] at hi
      obtain ⟨f, hf, rfl⟩ := List.mem_map.mp hi
      have hn := h _ hr (by
        have := List.length_pos_of_mem hf
        simp; omega)
      simp only [List.mem_append, List.mem_singleton, not_or] at hn
      refine ⟨fun e => hn.1 (by simpa [← e] using hf), fun e => hn.2 e.symm⟩
    · simp at hi

end Chanoma
