import Verif.Spec.Notation
import Verif.Spec.Pipeline
/-! # Specification: when two modifiers are the same -/

namespace Chanoma

/-- Two descriptions of the same modifier: the order of the entries, repeated characters and
overridden pairs and rules do not matter. -/
def SameStep : Step → Step → Prop
  | .convert l, .convert l' => ∀ c, lastPair l c = lastPair l' c
  | .eliminate cs, .eliminate cs' => ∀ c, c ∈ cs ↔ c ∈ cs'
  | .reduce c, .reduce c' => c = c'
  | .ligature rs, .ligature rs' => ∀ r, r ∈ lastRules rs ↔ r ∈ lastRules rs'
  | .spaces, .spaces => True
  | .trim, .trim => True
  | .neologdn, .neologdn => True
  | _, _ => False

/-- Modifiers of the same kind with the same entries, in whatever order. -/
def SameEntries : ModifierKind → ModifierKind → Prop
  | .characterConverter x, .characterConverter y => ∀ a b, (a, b) ∈ x.itemsMap ↔ (a, b) ∈ y.itemsMap
  | .characterEliminator x, .characterEliminator y => ∀ c, c ∈ x.chars ↔ c ∈ y.chars
  | .consecutiveCharacterReducer x, .consecutiveCharacterReducer y => x.c = y.c
  | .dottedSpaceEliminator, .dottedSpaceEliminator => True
  | .ligatureTranslator x, .ligatureTranslator y => ∀ a b, (a, b) ∈ x.map ↔ (a, b) ∈ y.map
  | .trim, .trim => True
  | .neologdn _, .neologdn _ => True
  | _, _ => False

/-- Modifiers of the same kind. -/
def SameKind : ModifierKind → ModifierKind → Prop
  | .characterConverter _, .characterConverter _ => True
  | .characterEliminator _, .characterEliminator _ => True
  | .consecutiveCharacterReducer _, .consecutiveCharacterReducer _ => True
  | .dottedSpaceEliminator, .dottedSpaceEliminator => True
  | .ligatureTranslator _, .ligatureTranslator _ => True
  | .trim, .trim => True
  | .neologdn _, .neologdn _ => True
  | _, _ => False

/-- A modifier that is described by the step, in any notation. -/
inductive MadeAs : ModifierKind → Step → Prop
  | yaml {σ : Oracle} {k v : YValue} {m : ModifierKind} {s : Step} : Describes k v s →
      ModifierKind.fromYaml σ k v = .ok m → MadeAs m s
  | string {σ : Oracle} {text : Str} {m : ModifierKind} {s : Step} : Written text s →
      ModifierKind.fromStr σ text = .ok m → MadeAs m s
  | program {m : ModifierKind} {s : Step} : MadeByMacro m s → MadeAs m s

/-- The modifiers that can be obtained: read from a string or a YAML entry, made by a macro or from
tables, made of a map, or one of a normaliser. -/
inductive Obtained : ModifierKind → Prop
  | string {σ : Oracle} {text : Str} {m : ModifierKind} : ModifierKind.fromStr σ text = .ok m →
      Obtained m
  | yaml {σ : Oracle} {k v : YValue} {m : ModifierKind} : ModifierKind.fromYaml σ k v = .ok m →
      Obtained m
  | program {m : ModifierKind} {s : Step} : MadeByMacro m s → Obtained m
  | tables {ts : List Table} {x : CharacterConverter} : CharacterConverter.fromTables ts = .ok x →
      Obtained (.characterConverter x)
  | converter {l : List (Char × Char)} : (l.map Prod.fst).Nodup → Obtained (.characterConverter ⟨l⟩)
  | ligatures {l : List (Str × Str)} : (l.map Prod.fst).Nodup → Obtained (.ligatureTranslator ⟨l⟩)
  | member {c : Chanoma} {m : ModifierKind} : ApiBuilt c → m ∈ c.modifiers → Obtained m

end Chanoma
