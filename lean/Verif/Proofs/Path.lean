import Verif.Spec.Path
import Verif.Proofs.Utf8
/-! # Lemmas about paths -/

namespace Chanoma

theorem strBytes_csv : strBytes (c! "csv") = p! "csv" := by decide +kernel
theorem strBytes_yaml : strBytes (c! "yaml") = p! "yaml" := by decide +kernel
theorem strBytes_yml : strBytes (c! "yml") = p! "yml" := by decide +kernel

/-- An ASCII byte in UTF-8 stands for itself: what is before and after is UTF-8. -/
theorem strBytes_split {s : Str} {a b : List UInt8} {x : UInt8} (hx : x < 0x80)
    (h : strBytes s = a ++ x :: b) : ∃ s1 s2, a = strBytes s1 ∧ b = strBytes s2 := by
  induction s generalizing a with
  | nil => simp [strBytes] at h
  | cons c s ih =>
    have hc : strBytes (c :: s) = String.utf8EncodeChar c ++ strBytes s := by simp [strBytes]
    rw [hc] at h
    by_cases hlt : c.toNat < 0x80
    · rw [encode_ascii hlt] at h
      cases a with
      | nil =>
        simp only [List.nil_append, List.singleton_append, List.cons.injEq] at h
        exact ⟨[], s, by simp [strBytes], h.2.symm⟩
      | cons y a =>
        simp only [List.cons_append, List.nil_append, List.cons.injEq] at h
        obtain ⟨s1, s2, h1, h2⟩ := ih h.2
        refine ⟨c :: s1, s2, ?_, h2⟩
        rw [← h.1, h1]
        simp [strBytes, encode_ascii hlt]
    · rcases List.append_eq_append_iff.mp h with ⟨a', h1, h2⟩ | ⟨b', h1, h2⟩
      · obtain ⟨s1, s2, h3, h4⟩ := ih h2
        exact ⟨c :: s1, s2, by rw [h1, h3]; simp [strBytes], h4⟩
      · cases b' with
        | nil =>
          obtain ⟨s1, s2, h3, h4⟩ := ih (a := []) (by simpa using h2.symm)
          refine ⟨[c], s2, ?_, h4⟩
          rw [← List.append_nil a, ← h1]
          simp [strBytes]
        | cons y b' =>
          simp only [List.cons_append, List.cons.injEq] at h2
          have := encode_nonascii (by omega : 0x80 ≤ c.toNat) x (by rw [h1, h2.1]; simp)
          exact absurd hx (UInt8.not_lt.mpr this)

theorem splitChar_ne_nil {α : Type} [DecidableEq α] (c : α) (s : List α) : splitChar c s ≠ [] := by
  induction s with
  | nil => simp [splitChar]
  | cons x s ih =>
    rw [splitChar]
    split
    · simp
    · split <;> simp

theorem splitChar_sep {α : Type} [DecidableEq α] (c : α) (a b : List α) :
    splitChar c (a ++ c :: b) = splitChar c a ++ splitChar c b := by
  induction a with
  | nil => simp [splitChar]
  | cons x a ih =>
    rw [List.cons_append, splitChar, splitChar]
    split
    · rw [ih]; rfl
    · rw [ih]
      cases h : splitChar c a with
      | nil => exact absurd h (splitChar_ne_nil c a)
      | cons p ps => rfl

theorem splitChar_none {α : Type} [DecidableEq α] {c : α} {s : List α} (h : c ∉ s) : splitChar c s = [s] := by
  induction s with
  | nil => rfl
  | cons x s ih =>
    simp only [List.mem_cons, not_or] at h
    rw [splitChar, if_neg (Ne.symm h.1), ih h.2]

/-- A list of pieces put together with separators. -/
def joinWith {α : Type} [DecidableEq α] (c : α) : List (List α) → List α
  | [] => []
  | [p] => p
  | p :: q :: ps => p ++ c :: joinWith c (q :: ps)

theorem joinWith_split {α : Type} [DecidableEq α] (c : α) (s : List α) : joinWith c (splitChar c s) = s := by
  induction s with
  | nil => rfl
  | cons x s ih =>
    rw [splitChar]
    cases h : splitChar c s with
    | nil => exact absurd h (splitChar_ne_nil c s)
    | cons p ps =>
      rw [h] at ih
      split
      · rename_i hx; subst hx
        rw [joinWith, ih]; rfl
      · cases ps with
        | nil => simp only [joinWith] at ih ⊢; rw [ih]
        | cons q qs => simp only [joinWith, List.cons_append] at ih ⊢; rw [ih]

theorem split_pieces {α : Type} [DecidableEq α] (c : α) (s : List α) : ∀ p ∈ splitChar c s, c ∉ p := by
  induction s with
  | nil => simp [splitChar]
  | cons x s ih =>
    rw [splitChar]
    cases h : splitChar c s with
    | nil => exact absurd h (splitChar_ne_nil c s)
    | cons p ps =>
      rw [h] at ih
      split
      · intro q hq
        rcases List.mem_cons.mp hq with rfl | hq
        · simp
        · exact ih q hq
      · rename_i hx
        intro q hq
        rcases List.mem_cons.mp hq with rfl | hq
        · simp only [List.mem_cons, not_or]
          exact ⟨Ne.symm hx, ih p (by simp)⟩
        · exact ih q (by simp [hq])

theorem joinWith_append {α : Type} [DecidableEq α] (c : α) (ps : List (List α)) (q : List α) (qs : List (List α)) :
    joinWith c (ps ++ q :: qs) = (if ps = [] then [] else joinWith c ps ++ [c]) ++ joinWith c (q :: qs) := by
  induction ps with
  | nil => simp
  | cons p ps ih =>
    cases ps with
    | nil => simp [joinWith]
    | cons p' ps =>
      rw [List.cons_append, List.cons_append, joinWith]
      rw [List.cons_append] at ih
      rw [ih, joinWith]
      simp

theorem trailing_pieces {t : OsStr} (h : Trailing t) :
    (splitChar (0x2F : UInt8) t).filter (fun c => !(c == [] || c == [(0x2E : UInt8)])) = [] ∧
    ∀ p : OsStr, (0x2F : UInt8) ∉ p → splitChar (0x2F : UInt8) (p ++ t) = p :: (splitChar (0x2F : UInt8) t).tail := by
  have aux : ∀ (t p : OsStr), (0x2F : UInt8) ∉ p → splitChar (0x2F : UInt8) (p ++ (0x2F : UInt8) :: t) = p :: splitChar (0x2F : UInt8) t := by
    intro t p hp
    rw [splitChar_sep, splitChar_none hp]; rfl
  have hcons : ∀ t : OsStr, splitChar (0x2F : UInt8) ((0x2F : UInt8) :: t) = [] :: splitChar (0x2F : UInt8) t := by
    intro t
    have := aux t [] (by simp)
    simpa using this
  induction h with
  | nil => exact ⟨by decide, fun p hp => by rw [List.append_nil, splitChar_none hp]; rfl⟩
  | @slash t h ih =>
    refine ⟨by rw [hcons]; simpa using ih.1, fun p hp => ?_⟩
    rw [aux t p hp, hcons]; rfl
  | @dot t h ih =>
    refine ⟨?_, fun p hp => ?_⟩
    · rw [hcons]
      have := ih.2 [(0x2E : UInt8)] (by decide)
      rw [List.singleton_append] at this
      rw [this]
      have h3 := ih.1
      cases hs : splitChar (0x2F : UInt8) t with
      | nil => exact absurd hs (splitChar_ne_nil _ _)
      | cons a l =>
        rw [hs] at h3
        rw [List.filter_eq_nil_iff] at h3
        rw [List.filter_eq_nil_iff]
        intro x hx
        rcases List.mem_cons.mp hx with rfl | hx
        · simp
        rcases List.mem_cons.mp hx with rfl | hx
        · simp
        · exact h3 x (List.mem_cons_of_mem _ hx)
    · rw [aux _ p hp, hcons]; rfl

theorem components_snoc (dir tail name : OsStr) (hd : dir = [] ∨ dir.getLast? = some (0x2F : UInt8))
    (ht : Trailing tail) (hn : (0x2F : UInt8) ∉ name) :
    ∃ pre, pathComponents (dir ++ name ++ tail) =
      pre ++ [name].filter (fun c => !(c == [] || c == [(0x2E : UInt8)])) := by
  obtain ⟨h1, h2⟩ := trailing_pieces ht
  have hnt : splitChar (0x2F : UInt8) (name ++ tail) = name :: (splitChar (0x2F : UInt8) tail).tail := h2 name hn
  have hfil : ((splitChar (0x2F : UInt8) tail).tail).filter (fun c => !(c == [] || c == [(0x2E : UInt8)])) = [] := by
    cases hs : splitChar (0x2F : UInt8) tail with
    | nil => rfl
    | cons a l =>
      rw [hs, List.filter_eq_nil_iff] at h1
      rw [List.tail_cons, List.filter_eq_nil_iff]
      exact fun x hx => h1 x (List.mem_cons_of_mem _ hx)
  unfold pathComponents
  rcases hd with rfl | hd
  · refine ⟨[], ?_⟩
    rw [List.nil_append, hnt, List.filter_cons, hfil]
    split <;> simp_all
  · obtain ⟨d, rfl⟩ := List.getLast?_eq_some_iff.mp hd
    refine ⟨(splitChar (0x2F : UInt8) d).filter (fun c => !(c == [] || c == [(0x2E : UInt8)])), ?_⟩
    have : d ++ [(0x2F : UInt8)] ++ name ++ tail = d ++ (0x2F : UInt8) :: (name ++ tail) := by simp
    rw [this, splitChar_sep, hnt, List.filter_append, List.filter_cons, hfil]
    split <;> simp_all

theorem hasName_fileName {path name : OsStr} (h : HasName path name) : pathFileName path = some name := by
  obtain ⟨dir, tail, rfl, hd, ht, hn, h1, h2, h3⟩ := h
  obtain ⟨pre, hp⟩ := components_snoc dir tail name hd ht hn
  have : [name].filter (fun c => !(c == [] || c == [(0x2E : UInt8)])) = [name] := by
    simp [h1, h2]
  rw [this] at hp
  unfold pathFileName
  rw [hp, List.getLast?_concat]
  simp [h3]

theorem trailing_join (q : List OsStr) (h : ∀ p ∈ q, p = [] ∨ p = [(0x2E : UInt8)]) :
    Trailing (q.flatMap fun p => (0x2F : UInt8) :: p) := by
  induction q with
  | nil => exact .nil
  | cons p q ih =>
    have := ih fun p hp => h p (by simp [hp])
    rw [List.flatMap_cons]
    rcases h p (by simp) with rfl | rfl
    · exact .slash this
    · exact .dot this

theorem joinWith_cons {α : Type} [DecidableEq α] (c : α) (p : List α) (q : List (List α)) :
    joinWith c (p :: q) = p ++ q.flatMap fun p => c :: p := by
  induction q generalizing p with
  | nil => simp [joinWith]
  | cons a q ih => rw [joinWith, ih]; simp

theorem fileName_hasName {path name : OsStr} (h : pathFileName path = some name) : HasName path name := by
  unfold pathFileName at h
  split at h
  · rename_i f hf
    split at h
    · cases h
    · rename_i hdd
      cases h
      unfold pathComponents at hf
      obtain ⟨ys, hys⟩ := List.getLast?_eq_some_iff.mp hf
      obtain ⟨l₁, l₂, hl, -, h2⟩ := List.filter_eq_append_iff.mp hys
      obtain ⟨l₃, l₄, rfl, h3, h4, h5⟩ := List.filter_eq_cons_iff.mp h2
      have hpieces := split_pieces (0x2F : UInt8) path
      have hpath := joinWith_split (0x2F : UInt8) path
      rw [hl] at hpieces hpath
      rw [← List.append_assoc, joinWith_append, joinWith_cons] at hpath
      simp only [Bool.not_eq_true', Bool.or_eq_false_iff, beq_eq_false_iff_ne] at h4
      refine ⟨if l₁ ++ l₃ = [] then [] else joinWith (0x2F : UInt8) (l₁ ++ l₃) ++ [(0x2F : UInt8)],
        l₄.flatMap fun p => (0x2F : UInt8) :: p, ?_, ?_, trailing_join _ ?_,
        hpieces name (by simp), h4.1, h4.2, hdd⟩
      · rw [← hpath]; simp
      · split
        · exact .inl rfl
        · exact .inr (by simp)
      · intro p hp
        rw [List.filter_eq_nil_iff] at h5
        have := h5 p hp
        by_cases hp0 : p = []
        · exact .inl hp0
        · right; simpa [hp0] using this
  · cases h

theorem fileName_iff {path name : OsStr} : pathFileName path = some name ↔ HasName path name :=
  ⟨fileName_hasName, hasName_fileName⟩

theorem splitAtLastDot_eq (stem ext : OsStr) (h : (0x2E : UInt8) ∉ ext) :
    splitAtLastDot (stem ++ (0x2E : UInt8) :: ext) = some (stem, ext) := by
  unfold splitAtLastDot
  rw [if_pos (by simp)]
  have hr : (stem ++ (0x2E : UInt8) :: ext).reverse = ext.reverse ++ (0x2E : UInt8) :: stem.reverse := by simp
  have hall : ∀ x ∈ ext.reverse, (x != (0x2E : UInt8)) = true := by
    intro x hx
    simp only [bne_iff_ne]
    intro hc; subst hc
    exact h (by simpa using hx)
  rw [hr, List.dropWhile_append_of_pos hall, List.takeWhile_append_of_pos hall]
  simp

theorem splitAtLastDot_some {f before after : OsStr} (h : splitAtLastDot f = some (before, after)) :
    f = before ++ (0x2E : UInt8) :: after ∧ (0x2E : UInt8) ∉ after := by
  unfold splitAtLastDot at h
  split at h
  · rename_i hd
    have hspl : ∃ stem ext, f = stem ++ (0x2E : UInt8) :: ext ∧ (0x2E : UInt8) ∉ ext := by
      clear h
      induction f with
      | nil => simp at hd
      | cons a f ih =>
        by_cases hf : (0x2E : UInt8) ∈ f
        · obtain ⟨s, e, rfl, he⟩ := ih hf
          exact ⟨a :: s, e, rfl, he⟩
        · rcases List.mem_cons.mp hd with rfl | h
          · exact ⟨[], f, rfl, hf⟩
          · exact absurd h hf
    obtain ⟨stem, ext, rfl, he⟩ := hspl
    have h2 := splitAtLastDot_eq stem ext he
    unfold splitAtLastDot at h2
    rw [if_pos hd] at h2
    rw [h2] at h
    cases h
    exact ⟨rfl, he⟩
  · cases h

theorem extension_iff {path ext : OsStr} : pathExtension path = some ext ↔ HasExt path ext := by
  constructor
  · intro h
    unfold pathExtension at h
    simp only [Option.bind_eq_bind, Option.bind_eq_some_iff] at h
    obtain ⟨f, hf, ⟨b, a⟩, hs, h⟩ := h
    dsimp only at h
    split at h
    · cases h
    · rename_i hb
      cases h
      obtain ⟨rfl, ha⟩ := splitAtLastDot_some hs
      exact ⟨b, fileName_iff.mp hf, by simpa using hb, ha⟩
  · rintro ⟨stem, hn, hs, he⟩
    unfold pathExtension
    simp only [fileName_iff.mpr hn, Option.bind_eq_bind, Option.bind_some, splitAtLastDot_eq stem ext he]
    simp [hs]

theorem extension_none {path : OsStr} : pathExtension path = none ↔ ¬ ∃ ext, HasExt path ext := by
  cases h : pathExtension path with
  | none =>
    simp only [true_iff]
    rintro ⟨ext, he⟩
    rw [extension_iff.mpr he] at h; cases h
  | some e => simp only [reduceCtorEq, false_iff, Classical.not_not]; exact ⟨e, extension_iff.mp h⟩

theorem HasExt.unique {path e e' : OsStr} (h : HasExt path e) (h' : HasExt path e') : e = e' := by
  rw [← extension_iff] at h h'
  rw [h] at h'; exact Option.some.inj h'

theorem pathPush_join (dir name : OsStr) (h : name.head? ≠ some (0x2F : UInt8)) : pathPush dir name = joinPath dir name := by
  unfold pathPush joinPath
  rw [if_neg h]
  by_cases hd : dir = []
  · subst hd; simp
  · by_cases hl : dir.getLast? = some (0x2F : UInt8)
    · simp [hl]
    · simp [hd, hl]

theorem join_hasName (dir name : OsStr) (h : (0x2F : UInt8) ∉ name) (h1 : name ≠ []) (h2 : name ≠ [(0x2E : UInt8)])
    (h3 : name ≠ [(0x2E : UInt8), (0x2E : UInt8)]) : HasName (joinPath dir name) name := by
  unfold joinPath
  split
  · rename_i hd
    exact ⟨dir, [], by simp, hd, .nil, h, h1, h2, h3⟩
  · exact ⟨dir ++ [(0x2F : UInt8)], [], by simp, .inr (by simp), .nil, h, h1, h2, h3⟩

theorem setExtension_join (dir file ext : OsStr) (h : (0x2F : UInt8) ∉ file) (h1 : file ≠ []) (h2 : file ≠ [(0x2E : UInt8)])
    (h3 : file ≠ [(0x2E : UInt8), (0x2E : UInt8)]) (hstem : fileStem file = file) (hext : ext ≠ []) :
    pathSetExtension (joinPath dir file) ext = joinPath dir (file ++ (0x2E : UInt8) :: ext) := by
  unfold pathSetExtension
  rw [hasName_fileName (join_hasName dir file h h1 h2 h3)]
  simp only [hstem]
  have he : ext.isEmpty = false := by cases ext <;> simp_all
  rw [he]
  unfold joinPath
  split
  · have : (dir ++ file).length - file.length = dir.length := by simp
    rw [this, List.take_left']
    · simp
    · rfl
  · have e : dir ++ (0x2F : UInt8) :: file = (dir ++ [(0x2F : UInt8)]) ++ file := by simp
    have : (dir ++ (0x2F : UInt8) :: file).length - file.length = (dir ++ [(0x2F : UInt8)]).length := by simp; omega
    rw [this, e, List.take_left' rfl]
    simp

theorem autoLoadPathsFromDir_eq (d : OsStr) : Configuration.autoLoadPathsFromDir d =
    [joinPath d (p! "chanomarc.csv"), joinPath d (p! "chanomarc.yaml"),
     joinPath d (p! ".chanomarc.csv"), joinPath d (p! ".chanomarc.yaml")] := by
  unfold Configuration.autoLoadPathsFromDir Configuration.fileNames FileExtension.all
  simp only [List.flatMap_cons, List.flatMap_nil, List.map_cons, List.map_nil, FileExtension.toString]
  rw [strBytes_csv, strBytes_yaml]
  rw [pathPush_join d (p! "chanomarc") (by decide), pathPush_join d (p! ".chanomarc") (by decide)]
  rw [setExtension_join d (p! "chanomarc") (p! "csv") (by decide) (by decide) (by decide) (by decide)
      (by decide) (by decide),
    setExtension_join d (p! "chanomarc") (p! "yaml") (by decide) (by decide) (by decide) (by decide)
      (by decide) (by decide),
    setExtension_join d (p! ".chanomarc") (p! "csv") (by decide) (by decide) (by decide) (by decide)
      (by decide) (by decide),
    setExtension_join d (p! ".chanomarc") (p! "yaml") (by decide) (by decide) (by decide) (by decide)
      (by decide) (by decide)]
  rfl

theorem autoLoadPaths_eq (w : World) :
    (Configuration.autoLoadDirs w).flatMap Configuration.autoLoadPathsFromDir = rcCandidates w := by
  have h1 : Configuration.autoLoadPathsFromDir = fun d =>
    [joinPath d (p! "chanomarc.csv"), joinPath d (p! "chanomarc.yaml"),
     joinPath d (p! ".chanomarc.csv"), joinPath d (p! ".chanomarc.yaml")] :=
    funext autoLoadPathsFromDir_eq
  unfold rcCandidates Configuration.autoLoadDirs
  rw [h1]
  cases w.home with
  | none => cases w.cwd <;> rfl
  | some h =>
    simp only
    rw [pathPush_join h (p! ".config/chanoma") (by decide)]
    cases w.cwd <;> rfl

theorem isFile_iff {w : World} {p : OsStr} : w.isFile p = true ↔ IsFile w p := by
  unfold World.isFile IsFile
  cases w.entry p with
  | none => simp
  | some e => cases e <;> simp

/-- Rc files always have one of the two extensions. -/
theorem rcCandidates_ext {w : World} {p : OsStr} (h : p ∈ rcCandidates w) :
    HasExt p (p! "csv") ∨ HasExt p (p! "yaml") := by
  unfold rcCandidates at h
  simp only [List.mem_flatMap, List.mem_cons, List.not_mem_nil, or_false] at h
  obtain ⟨d, -, rfl | rfl | rfl | rfl⟩ := h
  · exact .inl ⟨p! "chanomarc", join_hasName _ _ (by decide) (by decide) (by decide) (by decide), by decide, by decide⟩
  · exact .inr ⟨p! "chanomarc", join_hasName _ _ (by decide) (by decide) (by decide) (by decide), by decide, by decide⟩
  · exact .inl ⟨p! ".chanomarc", join_hasName _ _ (by decide) (by decide) (by decide) (by decide), by decide, by decide⟩
  · exact .inr ⟨p! ".chanomarc", join_hasName _ _ (by decide) (by decide) (by decide) (by decide), by decide, by decide⟩

theorem fromPath_ext {path : OsStr} {ext : Str} (h : HasExt path (strBytes ext)) :
    FileExtension.fromPath path = FileExtension.fromStr ext := by
  unfold FileExtension.fromPath
  rw [extension_iff.mpr h]
  simp only [strFromUtf8_strBytes]

theorem fromPath_nonUtf8 {path ext : OsStr} (h : HasExt path ext) (hn : ¬ IsUtf8 ext) :
    FileExtension.fromPath path = .err (.fileExtensionCanNotConvertToStr path) := by
  unfold FileExtension.fromPath
  rw [extension_iff.mpr h]
  cases hs : strFromUtf8 ext with
  | none => simp only [hs]
  | some s => exact absurd ⟨s, ((strFromUtf8_eq_some_iff _ _).mp hs).symm⟩ hn

/-- The extension of a path in UTF-8 is UTF-8. -/
theorem HasExt.utf8 {path : Str} {ext : OsStr} (h : HasExt (strBytes path) ext) : IsUtf8 ext := by
  obtain ⟨stem, ⟨dir, tail, hp, -, ht, -⟩, -, -⟩ := h
  have e : strBytes path = (dir ++ stem) ++ 0x2E :: (ext ++ tail) := by rw [hp]; simp
  obtain ⟨s1, s2, -, h2⟩ := strBytes_split (by decide) e
  cases ht with
  | nil => exact ⟨s2, by simpa using h2⟩
  | slash => 
    obtain ⟨s3, s4, h3, -⟩ := strBytes_split (by decide) h2.symm
    exact ⟨s3, h3⟩
  | dot =>
    obtain ⟨s3, s4, h3, -⟩ := strBytes_split (by decide) h2.symm
    exact ⟨s3, h3⟩

theorem filePathFromEnv_some {w : World} {p : Str} (h : w.chanomarc = some (strBytes p)) :
    Configuration.filePathFromEnv w = some (strBytes p) := by
  unfold Configuration.filePathFromEnv
  simp [h, strFromUtf8_strBytes]

theorem filePathFromEnv_none {w : World} (h : ¬ ChanomarcSet w) :
    Configuration.filePathFromEnv w = none := by
  unfold Configuration.filePathFromEnv
  cases hv : w.chanomarc with
  | none => rfl
  | some v =>
    cases hs : strFromUtf8 v with
    | none => simp [hs]
    | some s => exact absurd ⟨v, hv, s, ((strFromUtf8_eq_some_iff _ _).mp hs).symm⟩ h

theorem fromPath_csv {path : OsStr} (h : HasExt path (p! "csv")) : FileExtension.fromPath path = .ok .csv := by
  rw [← strBytes_csv] at h
  rw [fromPath_ext h]; decide

theorem fromPath_yaml {path : OsStr} (h : HasExt path (p! "yaml") ∨ HasExt path (p! "yml")) :
    FileExtension.fromPath path = .ok .yaml := by
  rw [← strBytes_yaml, ← strBytes_yml] at h
  rcases h with h | h <;> (rw [fromPath_ext h]; decide)

end Chanoma
