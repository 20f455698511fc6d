import Verif.Props.OneRow
/-! # C104: a directory that is searched twice

The directories searched for rc files are `~/.config/chanoma`, the home directory and the current
directory (`/repo/src/configuration.rs:120-132`).  Nothing removes a directory that is listed
twice, so the rc files of the home directory count twice for whoever works there. -/

namespace Chanoma

/-- Only the current directory `d` is searched: the user has no home directory. -/
def World.onlyIn (w : World) (d : OsStr) : World := { w with home := none, cwd := some d }

/-- The user's home directory is `h`, and there is no current directory to be searched. -/
def World.away (w : World) (h : OsStr) : World := { w with home := some h, cwd := none }

/-- The user's home directory is `h`, and they work in `d`. -/
def World.workingIn (w : World) (h d : OsStr) : World := { w with home := some h, cwd := some d }

/-- Where the rc files are searched changes nothing about how one of them is loaded. -/
theorem loadFileWithExt_dirs (σ : Oracle) (w : World) (home cwd : Option OsStr) :
    Configuration.loadFileWithExt σ { w with home := home, cwd := cwd } = Configuration.loadFileWithExt σ w := rfl

/-- The rc files in the directories. -/
def rcIn (d : OsStr) : List OsStr :=
  [joinPath d (p! "chanomarc.csv"), joinPath d (p! "chanomarc.yaml"),
    joinPath d (p! ".chanomarc.csv"), joinPath d (p! ".chanomarc.yaml")]

def rcLoad (σ : Oracle) (w : World) (ds : List OsStr) : Outcome (List (List ModifierKind)) :=
  ((ds.flatMap rcIn).filter w.isFile).mapM (Configuration.loadFileWithExt σ w)

theorem rcLoad_append (σ : Oracle) (w : World) (ds es : List OsStr) :
    rcLoad σ w (ds ++ es) = (do return (← rcLoad σ w ds) ++ (← rcLoad σ w es)) := by
  simp only [rcLoad, List.flatMap_append, List.filter_append, List.mapM_append]

theorem rc_onlyIn {σ : Oracle} {w : World} (hw : ¬ ChanomarcSet w) (d : OsStr) :
    Chanoma.loadRc σ (w.onlyIn d) = rcLoad σ w [d] >>= fun r => .ok ⟨r.flatten⟩ :=
  loadRc_search (w := w.onlyIn d) hw

theorem rc_away {σ : Oracle} {w : World} (hw : ¬ ChanomarcSet w) (h : OsStr) :
    Chanoma.loadRc σ (w.away h) = rcLoad σ w [joinPath h (p! ".config/chanoma"), h] >>= fun r => .ok ⟨r.flatten⟩ :=
  loadRc_search (w := w.away h) hw

theorem rc_workingIn {σ : Oracle} {w : World} (hw : ¬ ChanomarcSet w) (h d : OsStr) :
    Chanoma.loadRc σ (w.workingIn h d) =
      rcLoad σ w [joinPath h (p! ".config/chanoma"), h, d] >>= fun r => .ok ⟨r.flatten⟩ :=
  loadRc_search (w := w.workingIn h d) hw

theorem rcLoad_of_ok {σ : Oracle} {w : World} {ds : List OsStr} {c : Chanoma}
    (h : (rcLoad σ w ds >>= fun r => .ok (⟨r.flatten⟩ : Chanoma)) = .ok c) :
    ∃ r, rcLoad σ w ds = .ok r ∧ c.modifiers = r.flatten := by
  rw [bind_eq_ok] at h
  obtain ⟨r, h1, h2⟩ := h
  cases h2
  exact ⟨r, h1, rfl⟩

/-- C104: the modifiers of the rc files, directory by directory: first those that count wherever
the program is started, then those of the current directory; if the former cannot be loaded, that
is what fails, and otherwise it is the latter. -/
theorem C104_directories (σ : Oracle) (w : World) (hw : ¬ ChanomarcSet w) (h d : OsStr) :
    (∀ c c', Chanoma.loadRc σ (w.away h) = .ok c → Chanoma.loadRc σ (w.onlyIn d) = .ok c' →
      Chanoma.loadRc σ (w.workingIn h d) = .ok ⟨c.modifiers ++ c'.modifiers⟩) ∧
    (∀ e, Chanoma.loadRc σ (w.away h) = .err e → Chanoma.loadRc σ (w.workingIn h d) = .err e) ∧
    (Chanoma.loadRc σ (w.away h) = .panic → Chanoma.loadRc σ (w.workingIn h d) = .panic) ∧
    (∀ c e, Chanoma.loadRc σ (w.away h) = .ok c → Chanoma.loadRc σ (w.onlyIn d) = .err e →
      Chanoma.loadRc σ (w.workingIn h d) = .err e) ∧
    (∀ c, Chanoma.loadRc σ (w.away h) = .ok c → Chanoma.loadRc σ (w.onlyIn d) = .panic →
      Chanoma.loadRc σ (w.workingIn h d) = .panic) := by
  rw [rc_away hw, rc_onlyIn hw, rc_workingIn hw,
    show [joinPath h (p! ".config/chanoma"), h, d] = [joinPath h (p! ".config/chanoma"), h] ++ [d] from rfl, rcLoad_append]
  cases rcLoad σ w [joinPath h (p! ".config/chanoma"), h] <;> cases rcLoad σ w [d] <;>
    simp +contextual [Outcome.pure_eq, Bind.bind, Outcome.bind]

/-- C104: if the files in `~/.config/chanoma` give the modifiers `a` and those in the home
directory the modifiers `b`, these are what counts when the program is started where there is no
other rc file; started in the home directory, the modifiers `b` count twice, and started in
`~/.config/chanoma`, the modifiers `a` do. -/
theorem C104_twice (σ : Oracle) (w : World) (hw : ¬ ChanomarcSet w) (h : OsStr) (a b : List ModifierKind)
    (ha : Chanoma.loadRc σ (w.onlyIn (joinPath h (p! ".config/chanoma"))) = .ok ⟨a⟩)
    (hb : Chanoma.loadRc σ (w.onlyIn h) = .ok ⟨b⟩) :
    Chanoma.loadRc σ (w.away h) = .ok ⟨a ++ b⟩ ∧
    (∀ d, (∀ name, ¬ IsFile w (joinPath d name)) → Chanoma.loadRc σ (w.workingIn h d) = .ok ⟨a ++ b⟩) ∧
    Chanoma.loadRc σ (w.workingIn h h) = .ok ⟨a ++ b ++ b⟩ ∧
    Chanoma.loadRc σ (w.workingIn h (joinPath h (p! ".config/chanoma"))) = .ok ⟨a ++ b ++ a⟩ := by
  have haway : Chanoma.loadRc σ (w.away h) = .ok ⟨a ++ b⟩ := by
    rw [rc_onlyIn hw] at ha hb
    obtain ⟨ra, h1, h2⟩ := rcLoad_of_ok ha
    obtain ⟨rb, h3, h4⟩ := rcLoad_of_ok hb
    rw [rc_away hw, show [joinPath h (p! ".config/chanoma"), h] = [joinPath h (p! ".config/chanoma")] ++ [h] from rfl,
      rcLoad_append, h1, h3]
    simp only at h2 h4
    simp [Outcome.ok_bind, Outcome.pure_eq, h2, h4]
  refine ⟨haway, fun d hd => ?_, ?_, ?_⟩
  · have : Chanoma.loadRc σ (w.onlyIn d) = .ok ⟨[]⟩ := by
      have hn : ∀ name, w.isFile (joinPath d name) = false := by
        intro name
        have := hd name
        rw [← isFile_iff] at this
        simpa using this
      rw [rc_onlyIn hw]
      simp [rcLoad, rcIn, hn, Outcome.pure_eq, Outcome.ok_bind]
    rw [(C104_directories σ w hw h d).1 _ _ haway this, List.append_nil]
  · exact (C104_directories σ w hw h h).1 _ _ haway hb
  · exact (C104_directories σ w hw h _).1 _ _ haway ha

theorem foldl_zipIdx_shift (ms : List ModifierKind) (σs : Nat → Oracle) (k i : Nat) (t : Str) :
    (ms.zipIdx (k + i)).foldlM (fun acc m => m.1.modify (σs m.2) acc) t =
      (ms.zipIdx i).foldlM (fun acc m => m.1.modify (σs (k + m.2)) acc) t := by
  induction ms generalizing i t with
  | nil => rfl
  | cons m ms ih =>
    simp only [List.zipIdx_cons, List.foldlM_cons]
    cases m.modify (σs (k + i)) t with
    | ok o => exact ih (i + 1) o
    | err e => rfl
    | panic => rfl

theorem normalize_append (a b : List ModifierKind) (σs : Nat → Oracle) (t o : Str)
    (h : (Chanoma.mk a).normalize σs false t = .ok o) :
    (Chanoma.mk (a ++ b)).normalize σs false t = (Chanoma.mk b).normalize (fun i => σs (a.length + i)) false o := by
  simp only [Chanoma.normalize, Bool.not_false, if_true] at h ⊢
  rw [List.zipIdx_append, List.foldlM_append, h]
  rw [Outcome.ok_bind, Nat.zero_add]
  exact foldl_zipIdx_shift b σs a.length 0 o

/-- C104: so if there is no rc file in `~/.config/chanoma`, whoever starts the program in the home
directory has their text normalised a second time by everything that counts elsewhere. -/
theorem C104_again (σ : Oracle) (w : World) (hw : ¬ ChanomarcSet w) (h : OsStr)
    (hnone : ∀ name, ¬ IsFile w (joinPath (joinPath h (p! ".config/chanoma")) name)) (c : Chanoma)
    (hc : Chanoma.loadRc σ (w.away h) = .ok c) :
    ∃ c', Chanoma.loadRc σ (w.workingIn h h) = .ok c' ∧ ∀ (σs : Nat → Oracle) (text once : Str),
      c.normalize σs false text = .ok once →
      c'.normalize σs false text = c.normalize (fun i => σs (c.modifiers.length + i)) false once := by
  have hn : ∀ name, w.isFile (joinPath (joinPath h (p! ".config/chanoma")) name) = false := by
    intro name
    have := hnone name
    rw [← isFile_iff] at this
    simpa using this
  have hsame : rcLoad σ w [joinPath h (p! ".config/chanoma"), h] = rcLoad σ w [h] := by
    simp [rcLoad, rcIn, hn]
  have hb : Chanoma.loadRc σ (w.onlyIn h) = .ok c := by
    rw [rc_onlyIn hw, ← hsame, ← rc_away hw]; exact hc
  exact ⟨_, (C104_directories σ w hw h h).1 _ _ hc hb, fun σs text once hone =>
    normalize_append c.modifiers c.modifiers σs text once hone⟩

open Classical in
/-- C104: with one table file in the home directory and no other rc file, each character is looked up
once elsewhere and twice in the home directory; so the two agree on all texts exactly if no
character that a row leads to is led elsewhere by another. -/
theorem C104_table (σ : Oracle) (w : World) (hw : ¬ ChanomarcSet w) (h path : OsStr) (rows : List (List Str)) (c₀ : Chanoma)
    (htable : TableFile σ w path rows c₀)
    (hpath : path = joinPath h (p! "chanomarc.csv") ∨ path = joinPath h (p! ".chanomarc.csv"))
    (hone : (rcCandidates (w.away h)).filter (fun p => decide (IsFile w p)) = [path]) :
    ∃ c c', Chanoma.loadRc σ (w.away h) = .ok c ∧ Chanoma.loadRc σ (w.workingIn h h) = .ok c' ∧
      (∀ σs text, c.normalize σs false text = .ok (substitute (itemSubst (rows.flatMap rowItems)) text)) ∧
      (∀ σs text, c'.normalize σs false text = .ok (substitute (itemSubst (rows.flatMap rowItems))
        (substitute (itemSubst (rows.flatMap rowItems)) text))) ∧
      ((∀ σs text, c.normalize σs false text = c'.normalize σs false text) ↔
        ∀ x y z, itemSubst (rows.flatMap rowItems) x = some y → itemSubst (rows.flatMap rowItems) y = some z → z = y) := by
  obtain ⟨-, hnorm⟩ := tableFile_rows htable
  have hload := htable.2.2
  have hc : Chanoma.loadRc σ (w.away h) = .ok c₀ := by
    have := (C38_search_order σ (w.away h) hw [path] hone.symm).1 [c₀] (by
      simp only [List.map_cons, List.map_nil, List.cons.injEq, and_true]; exact hload)
    rw [this]
    simp
  have hb : Chanoma.loadRc σ (w.onlyIn h) = .ok c₀ := by
    have hsplit : (rcCandidates (w.away h)).filter (fun p => decide (IsFile w p)) =
        (rcIn (joinPath h (p! ".config/chanoma"))).filter (fun p => decide (IsFile w p)) ++
        (rcIn h).filter (fun p => decide (IsFile w p)) := by
      rw [← List.filter_append]; rfl
    rw [hsplit] at hone
    have hfile : IsFile w path := by
      have : path ∈ (rcIn (joinPath h (p! ".config/chanoma"))).filter (fun p => decide (IsFile w p)) ++
        (rcIn h).filter (fun p => decide (IsFile w p)) := by rw [hone]; simp
      rw [← List.filter_append] at this
      simpa using (List.mem_filter.1 this).2
    have hmem : path ∈ (rcIn h).filter (fun p => decide (IsFile w p)) := by
      rw [List.mem_filter]
      refine ⟨?_, by simpa using hfile⟩
      rcases hpath with rfl | rfl <;> simp [rcIn]
    have hhome : (rcIn h).filter (fun p => decide (IsFile w p)) = [path] := by
      rcases List.append_eq_singleton_iff.1 hone with ⟨-, h2⟩ | ⟨-, h2⟩
      · exact h2
      · rw [h2] at hmem; cases hmem
    have := (C38_search_order σ (w.onlyIn h) hw [path] hhome.symm).1 [c₀] (by
      simp only [List.map_cons, List.map_nil, List.cons.injEq, and_true]; exact hload)
    rw [this]
    simp
  have htwice : ∀ σs text, (Chanoma.mk (c₀.modifiers ++ c₀.modifiers)).normalize σs false text =
      .ok (substitute (itemSubst (rows.flatMap rowItems)) (substitute (itemSubst (rows.flatMap rowItems)) text)) := by
    intro σs text
    rw [normalize_append c₀.modifiers c₀.modifiers σs text _ (hnorm σs false text)]
    exact hnorm _ _ _
  refine ⟨c₀, _, hc, (C104_directories σ w hw h h).1 _ _ hc hb, fun σs text => hnorm _ _ _, htwice, ?_⟩
  constructor
  · intro heq x y z hx hy
    have := heq (fun _ => .insertion) [x]
    rw [hnorm, htwice] at this
    simp [substitute, hx, hy] at this
    exact this.symm
  · intro hidem σs text
    rw [hnorm, htwice]
    simp only [substitute, List.map_map]
    refine congrArg _ (List.map_congr_left fun x _ => ?_)
    simp only [Function.comp]
    cases hx : itemSubst (rows.flatMap rowItems) x with
    | none => simp [hx]
    | some y =>
      cases hy : itemSubst (rows.flatMap rowItems) y with
      | none => simp [hy]
      | some z => simp [hy, hidem x y z hx hy]

/-- A table in the home directory that leads `a` to `b`, and `b` to `c`. -/
def chainWorld : World :=
  World.ofFiles [(p! "/home/u/.chanomarc.csv", .text (c! "from,to\na,b\nb,c\n"))]

example : ¬ ChanomarcSet chainWorld := by rintro ⟨v, h, -⟩; cases h

/- The hypotheses of the theorems are met, and it makes a difference where the program is started:
`a` becomes `b` at work and `c` at home. -/
example :
    (Chanoma.loadRc .insertion (chainWorld.workingIn (p! "/home/u") (p! "/work")) >>= fun c =>
      c.normalize (fun _ => .insertion) false (c! "abx")) = .ok (c! "bcx") ∧
    (Chanoma.loadRc .insertion (chainWorld.workingIn (p! "/home/u") (p! "/home/u")) >>= fun c =>
      c.normalize (fun _ => .insertion) false (c! "abx")) = .ok (c! "ccx") := by
  decide +kernel

example : ∀ name, ¬ IsFile chainWorld (joinPath (joinPath (p! "/home/u") (p! ".config/chanoma")) name) := by
  intro name
  have hne : ¬ p! "/home/u/.chanomarc.csv" = joinPath (joinPath (p! "/home/u") (p! ".config/chanoma")) name := by
    rw [show joinPath (joinPath (p! "/home/u") (p! ".config/chanoma")) name = p! "/home/u/.config/chanoma/" ++ name from rfl]
    intro h
    exact absurd (congrArg (·.take 12) h) (by simp)
  rw [← isFile_iff]
  simp [World.isFile, chainWorld, World.ofFiles, hne]

/- Both directories have rc files; `q` becomes `a` because of the one, and `a` becomes `b` and then
`c` because of the other. -/
example :
    let w := World.ofFiles [(p! "/home/u/.chanomarc.csv", .text (c! "from,to\na,b\nb,c\n")),
      (p! "/home/u/.config/chanoma/chanomarc.csv", .text (c! "from,to\nq,a\nc,q\n"))]
    let run := fun d => Chanoma.loadRc .insertion (w.workingIn (p! "/home/u") d) >>= fun c =>
      c.normalize (fun _ => .insertion) false (c! "qb")
    run (p! "/work") = .ok (c! "bc") ∧ run (p! "/home/u") = .ok (c! "cc") ∧
      run (p! "/home/u/.config/chanoma") = .ok (c! "bq") := by
  decide +kernel

example : (rcCandidates (chainWorld.away (p! "/home/u"))).filter (fun p => chainWorld.isFile p) =
    [joinPath (p! "/home/u") (p! ".chanomarc.csv")] := by decide +kernel

example : ∃ c, TableFile .insertion chainWorld (p! "/home/u/.chanomarc.csv") [[c! "a", c! "b"], [c! "b", c! "c"]] c := by
  have hx : HasExt (p! "/home/u/.chanomarc.csv") (p! "csv") :=
    ⟨p! ".chanomarc", ⟨p! "/home/u/", [], rfl, by decide, .nil, by decide, by decide, by decide, by decide⟩, by decide, by decide⟩
  have hr : CsvRows (strBytes (c! "from,to\na,b\nb,c\n")) [[c! "a", c! "b"], [c! "b", c! "c"]] := by
    have h := (C28_rows_of_text _ _ (textGo_csvText (c! "from,to\na,b\nb,c\n"))).1 (by decide)
    rwa [show (textGo .startRecord [] [] (c! "from,to\na,b\nb,c\n")).tail =
      [[c! "a", c! "b"], [c! "b", c! "c"]] by decide +kernel] at h
  obtain ⟨c, h, -⟩ := C35_csv_pipeline .insertion chainWorld _ hx _ _ hr rfl (by decide)
  exact ⟨c, hx, ⟨_, rfl, hr⟩, h⟩

end Chanoma
