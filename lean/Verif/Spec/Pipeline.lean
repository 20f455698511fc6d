import Verif.Model.Configuration
import Verif.Spec.Convert
import Verif.Spec.Ligature
/-! # Specifications: pipelines built through the public interface -/

namespace Chanoma

/-- A call that adds a modifier to a pipeline. -/
inductive Call where
  | usePreset (σ : Oracle)
  | useNeologdn (σ : Oracle)
  | addTable (t : Table)

/-- The call performed by the library. -/
def Call.run (c : Chanoma) : Call → Outcome Chanoma
  | .usePreset σ => c.usePreset σ
  | .useNeologdn σ => c.useNeologdn σ
  | .addTable t => c.addTable t

/-- What the added modifier does to a text. -/
def Call.meaning (text : Str) : Call → Str
  | .usePreset _ => text.map presetFold
  | .useNeologdn _ => neologdnSpec text
  | .addTable t => substitute (itemSubst t.items) text

/-- Does the call succeed? Only a table with an empty cell is not accepted. -/
def Call.Accepted : Call → Prop
  | .addTable t => CellsNonEmpty t.items
  | _ => True

/-- The pipelines that can be obtained through the public functions of `Chanoma`, in any
environment and for any configuration files. -/
inductive ApiBuilt : Chanoma → Prop
  | new : ApiBuilt Chanoma.new
  | preset {σ : Oracle} {c} : Chanoma.preset σ = .ok c → ApiBuilt c
  | neologdn {σ : Oracle} {c} : Chanoma.neologdn σ = .ok c → ApiBuilt c
  | fromTable {t c} : Chanoma.fromTable t = .ok c → ApiBuilt c
  | loadRc {σ : Oracle} {w c} : Chanoma.loadRc σ w = .ok c → ApiBuilt c
  | fromConfigFile {σ : Oracle} {w path c} : Chanoma.fromConfigFile σ w path = .ok c → ApiBuilt c
  | call {c c' : Chanoma} (call : Call) : ApiBuilt c → call.run c = .ok c' → ApiBuilt c'

/-- The records form a chain: one per modifier, in order; each holds its modifier and the text
that modifier makes of the previous record's text (of the input, for the first one). -/
def Chained (σs : Nat → Oracle) : Nat → Str → List ModifierKind → List ModifiedRecord → Prop
  | _, _, [], [] => True
  | i, text, m :: ms, r :: rs =>
    r.kind = m ∧ m.modify (σs i) text = .ok r.text ∧ Chained σs (i + 1) r.text ms rs
  | _, _, _, _ => False

end Chanoma
