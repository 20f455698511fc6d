import Verif.Spec.Path
import Verif.Model.Changing
/-! # Specification for configurations that change while they are loaded

`ws t` is the environment at the moment `t`. -/

namespace Chanoma

/-- The candidates are looked for one after the other, from the moment `t` on; `found` are those that are
a file at the moment they are looked for. -/
inductive LookedFor (ws : Nat → World) : Nat → List OsStr → List OsStr → Prop
  | nil (t : Nat) : LookedFor ws t [] []
  | there {t : Nat} {p : OsStr} {ps found : List OsStr} : IsFile (ws t) p → LookedFor ws (t + 1) ps found →
      LookedFor ws t (p :: ps) (p :: found)
  | missing {t : Nat} {p : OsStr} {ps found : List OsStr} : ¬ IsFile (ws t) p →
      LookedFor ws (t + 1) ps found → LookedFor ws t (p :: ps) found

/-- The files are loaded one after the other, from the moment `t` on, each of them with two readings; the
first failure ends it, otherwise the pipelines are concatenated. -/
inductive LoadedInTurn (σ : Oracle) (ws : Nat → World) : Nat → List OsStr → Outcome Chanoma → Prop
  | nil (t : Nat) : LoadedInTurn σ ws t [] (.ok ⟨[]⟩)
  | ok {t : Nat} {p : OsStr} {ps : List OsStr} {c d : Chanoma} :
      Chanoma.fromConfigFileAt σ (ws t) (ws (t + 1)) p = .ok c → LoadedInTurn σ ws (t + 2) ps (.ok d) →
      LoadedInTurn σ ws t (p :: ps) (.ok ⟨c.modifiers ++ d.modifiers⟩)
  | err {t : Nat} {p : OsStr} {ps : List OsStr} {e : Error} :
      Chanoma.fromConfigFileAt σ (ws t) (ws (t + 1)) p = .err e → LoadedInTurn σ ws t (p :: ps) (.err e)
  | panic {t : Nat} {p : OsStr} {ps : List OsStr} :
      Chanoma.fromConfigFileAt σ (ws t) (ws (t + 1)) p = .panic → LoadedInTurn σ ws t (p :: ps) .panic
  | err_later {t : Nat} {p : OsStr} {ps : List OsStr} {c : Chanoma} {e : Error} :
      Chanoma.fromConfigFileAt σ (ws t) (ws (t + 1)) p = .ok c → LoadedInTurn σ ws (t + 2) ps (.err e) →
      LoadedInTurn σ ws t (p :: ps) (.err e)
  | panic_later {t : Nat} {p : OsStr} {ps : List OsStr} {c : Chanoma} :
      Chanoma.fromConfigFileAt σ (ws t) (ws (t + 1)) p = .ok c → LoadedInTurn σ ws (t + 2) ps .panic →
      LoadedInTurn σ ws t (p :: ps) .panic

end Chanoma
