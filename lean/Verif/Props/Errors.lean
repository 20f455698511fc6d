import Verif.Props.Config
import Verif.Props.Cli
import Verif.Model.Error
/-! # C53: the texts of errors -/

namespace Chanoma

theorem pathDisplayGo_strBytes : ∀ (s : Str) (n : Nat), s.length ≤ n →
    pathDisplayGo n (strBytes s) = s
  | [], n, _ => by cases n <;> rfl
  | c :: s, 0, h => by simp at h
  | c :: s, n + 1, h => by
    have hne : strBytes (c :: s) ≠ [] := by
      rw [strBytes_cons]
      intro e
      exact encode_ne_nil c (List.append_eq_nil_iff.mp e).1
    obtain ⟨x, xs, hx⟩ := List.exists_cons_of_ne_nil hne
    have h1 := utf8Head_encode c (strBytes s)
    rw [← strBytes_cons, hx] at h1
    rw [hx, pathDisplayGo, h1]
    simp only
    · rw [pathDisplayGo_strBytes s n (by simpa using h)]
    · simp

/-- C53: a path that is valid UTF-8 is displayed as it is. -/
theorem C53_display (s : Str) : pathDisplay (strBytes s) = s :=
  pathDisplayGo_strBytes s _ (length_le_strBytes s)

/-- The paths in an error are valid UTF-8. -/
def Error.PathUtf8 : Error → Prop
  | .rcFileLoad p | .fileExtensionNotFoundInPath p | .fileExtensionCanNotConvertToStr p => IsUtf8 p
  | _ => True

/-- C53: the text of an error determines its kind and what it is about: two errors of the crate (other
than passed on I/O errors) with the same text are the same. -/
theorem C53_text_determines (f g : ForeignTexts) (a b : Error) (ha : a ≠ .io) (hb : b ≠ .io)
    (ha' : a.PathUtf8) (hb' : b.PathUtf8) (h : a.text f = b.text g) : a = b := by
  cases a <;> cases b <;> simp only [Error.text, List.cons_append, List.nil_append, List.cons.injEq,
    reduceCtorEq, Char.reduceEq, false_and, and_false, true_and, ne_eq, not_true_eq_false] at h ha hb ⊢ <;>
    first
    | (obtain ⟨s, rfl⟩ := ha'
       obtain ⟨t, rfl⟩ := hb'
       rw [C53_display, C53_display] at h
       rw [h])
    | exact h ▸ rfl

/-- C53: the text of the `OSError` that `Chanoma(rc=True)` raises for a `CHANOMARC` that is not usable
names its value. -/
theorem C53_python_chanomarc (f : ForeignTexts) (σ : Oracle) (w : World) (p : Str)
    (hw : w.chanomarc = some (strBytes p)) (table : Option Table) (preset neologdn : Bool)
    (h : ¬ IsFile w (strBytes p) ∨ ∃ ext, HasExt (strBytes p) ext ∧ ext ≠ p! "csv" ∧ ext ≠ p! "yaml") :
    (pyChanomaNew σ w { rc := true, table, preset, neologdn }).toPy f =
      .osError (c! "指定された設定ファイルが存在しません: " ++ p) := by
  have key : Chanoma.loadRc σ w = .err (.rcFileLoad (strBytes p)) := by
    obtain ⟨h1, -, h2, -⟩ := C40_chanomarc_outcome σ w _ hw ⟨p, rfl⟩
    by_cases hf : IsFile w (strBytes p)
    · obtain h | ⟨ext, h3, h4, h5⟩ := h
      · exact absurd hf h
      · exact h2 ext hf h3 h4 h5
    · exact h1 hf
  have e : pyChanomaNew σ w { rc := true, table, preset, neologdn } = .err (.rcFileLoad (strBytes p)) := by
    unfold pyChanomaNew
    simp only [if_true, key, Outcome.err_bind]
  rw [e]
  simp only [Outcome.toPy, Error.text, C53_display]

/-- C53: the text of the `OSError` that `Chanoma(configfile=…)` raises for an unknown or missing
extension names the extension or the path. -/
theorem C53_python_configfile (f : ForeignTexts) (σ : Oracle) (w : World) (path : Str) (a : PyArgs)
    (ha : a.configfile = some path) :
    (∀ ext : Str, HasExt (strBytes path) (strBytes ext) → ext ∉ [c! "csv", c! "yaml", c! "yml"] →
      (pyChanomaNew σ w a).toPy f = .osError (c! "未対応のファイル拡張子が指定されています: " ++ ext)) ∧
    ((¬ ∃ ext, HasExt (strBytes path) ext) →
      (pyChanomaNew σ w a).toPy f = .osError (c! "指定したパスに拡張子が含まれていません: " ++ path)) := by
  obtain ⟨-, -, h1, -, h2⟩ := C33_unreadable σ w (strBytes path)
  constructor
  · intro ext h3 h4
    unfold pyChanomaNew
    simp only [ha, h1 ext h3 h4, Outcome.err_bind, Outcome.toPy, Error.text]
  · intro h
    unfold pyChanomaNew
    simp only [ha, h2 h, Outcome.err_bind, Outcome.toPy, Error.text, C53_display]

/-- C53: the text of the error for an unknown modifier name in a YAML file contains the name. -/
theorem C53_unknown_modifier (f : ForeignTexts) (σ : Oracle) (w : World) (path : OsStr)
    (hext : HasExt path (p! "yaml") ∨ HasExt path (p! "yml")) (s : List UInt8) (data : YValue)
    (hfile : w.entry path = some (.file s)) (hyaml : w.parseYaml s = some data)
    (ht : DocTable data) (pre post : List (YValue × YValue)) (steps : List Step) (name : Str) (v : YValue)
    (hm : HasField data (c! "modifiers") (.mapping (pre ++ (.string name, v) :: post)))
    (hpre : DescribesAll pre steps) (h1 : name ∉ plainNames) (h2 : name ∉ parameterNames) :
    ∃ e, Chanoma.fromConfigFile σ w path = .err e ∧
      e.text f = c! "存在しない Modifier が指定されています: specified key " ++ name ++ c! " does not exists." := by
  refine ⟨_, C36_unknown_modifier σ w path hext s data hfile hyaml ht pre post steps _ v hm hpre _
    (.unknown v h1 h2), ?_⟩
  simp [Error.text]

example : pathDisplay [0x2F, 0x61, 0xFF, 0xE3, 0x81, 0x62, 0xF0, 0x9F, 0x98, 0xE3, 0x81, 0x82] =
    c! "/a��b�あ" := by decide +kernel
example : ¬ IsFile (.ofFiles []) (strBytes (c! "/設定")) := by
  have h : (World.ofFiles []).entry (strBytes (c! "/設定")) = none := by decide +kernel
  rintro (⟨b, h'⟩ | h') <;> (rw [h] at h'; cases h')

end Chanoma
