import Verif.Spec.Pipeline
/-! # Specification: what a YAML configuration file says -/

namespace Chanoma

/-! ## Modifiers by their effect -/

/-- A configured modifier. -/
inductive Step where
  | convert (pairs : List (Char × Char))
  | eliminate (chars : List Char)
  | reduce (c : Char)
  | ligature (rules : List (Str × Str))
  | spaces
  | trim
  | neologdn

/-- The partner of a character: that of the last pair listed for it. -/
def lastPair (pairs : List (Char × Char)) (c : Char) : Option Char :=
  (pairs.reverse.find? fun p => p.1 = c).map Prod.snd

/-- The rules without those that are overridden by a later rule for the same key. -/
def lastRules : List (Str × Str) → List (Str × Str)
  | [] => []
  | r :: rs => if r.1 ∈ rs.map Prod.fst then lastRules rs else r :: lastRules rs

/-- All occurrences of `k`, found from left to right, are replaced by `v`.  An empty `k` occurs
at the beginning and after every character. -/
def ReplacedAll (k v text out : Str) : Prop :=
  if k = [] then out = v ++ text.flatMap fun c => c :: v else Replaced [(k, v)] text out

/-- The rules are applied one after the other. -/
inductive ReplacedInTurn : List (Str × Str) → Str → Str → Prop
  | nil (t : Str) : ReplacedInTurn [] t t
  | cons {k v : Str} {rs : List (Str × Str)} {t u o : Str} : ReplacedAll k v t u →
      ReplacedInTurn rs u o → ReplacedInTurn ((k, v) :: rs) t o

/-- What a modifier makes of a text.  A relation: the ligature rules are applied in an
unspecified order. -/
def Step.Makes (text out : Str) : Step → Prop
  | .convert pairs => out = substitute (lastPair pairs) text
  | .eliminate chars => out = text.filter fun c => c ∉ chars
  | .reduce c => out = squeeze c text
  | .ligature rules => ∃ order, order.Perm (lastRules rules) ∧ ReplacedInTurn order text out
  | .spaces => out = spaceRule text
  | .trim => out.head? ≠ some ' ' ∧ out.getLast? ≠ some ' ' ∧
      ∃ a b, text = List.replicate a ' ' ++ out ++ List.replicate b ' '
  | .neologdn => out = neologdnSpec text

/-- Modifiers run one after the other. -/
inductive StepsMake : List Step → Str → Str → Prop
  | nil (t : Str) : StepsMake [] t t
  | cons {s : Step} {ss : List Step} {t u o : Str} : s.Makes t u → StepsMake ss u o →
      StepsMake (s :: ss) t o

/-! ## Entries of `modifiers` -/

/-- `Describes key value step`: the YAML entry `key: value` describes the modifier.  Of the
strings given to the converter, the eliminator and the reducer only the first character counts. -/
inductive Describes : YValue → YValue → Step → Prop
  | convert (l : List ((Char × Str) × (Char × Str))) :
      Describes (.string (c! "character_converter"))
        (.mapping (l.map fun e => (.string (e.1.1 :: e.1.2), .string (e.2.1 :: e.2.2))))
        (.convert (l.map fun e => (e.1.1, e.2.1)))
  | eliminate (l : List (Char × Str)) :
      Describes (.string (c! "character_eliminator"))
        (.sequence (l.map fun e => .string (e.1 :: e.2))) (.eliminate (l.map fun e => e.1))
  | reduce (c : Char) (s : Str) :
      Describes (.string (c! "consecutive_character_reducer")) (.string (c :: s)) (.reduce c)
  | ligature (rules : List (Str × Str)) :
      Describes (.string (c! "ligature_translator"))
        (.mapping (rules.map fun r => (.string r.1, .string r.2))) (.ligature rules)
  | spaces : Describes (.string (c! "dotted_space_eliminator")) .null .spaces
  | trim : Describes (.string (c! "trim")) .null .trim
  | neologdn : Describes (.string (c! "neologdn")) .null .neologdn

/-- The names of modifiers without and with parameter. -/
def plainNames : List Str := [c! "dotted_space_eliminator", c! "trim", c! "neologdn"]

/-- The names of modifiers with a parameter. -/
def parameterNames : List Str :=
  [c! "character_converter", c! "character_eliminator", c! "consecutive_character_reducer",
    c! "ligature_translator"]

/-- Entries that are reported as an error, and its message: an unknown name, or a parameter where
none is allowed. -/
inductive Rejected : YValue → YValue → Str → Prop
  | unknown {name : Str} (v : YValue) : name ∉ plainNames → name ∉ parameterNames →
      Rejected (.string name) v (c! "specified key " ++ name ++ c! " does not exists.")
  | parameter {name : Str} {v : YValue} : name ∈ plainNames → v ≠ .null →
      Rejected (.string name) v (c! "Cannot specify a value.")

/-- A list of entries describes a list of modifiers. -/
inductive DescribesAll : List (YValue × YValue) → List Step → Prop
  | nil : DescribesAll [] []
  | cons {k v : YValue} {s : Step} {l : List (YValue × YValue)} {ss : List Step} :
      Describes k v s → DescribesAll l ss → DescribesAll ((k, v) :: l) (s :: ss)

/-! ## Entries of `items` -/

/-- `EntryItems key value items`: an entry of `items` is a target with one source or with a list
of sources; an empty list says nothing, whatever its key. -/
inductive EntryItems : YValue → YValue → List Item → Prop
  | one (to f : Str) : EntryItems (.string to) (.string f) [⟨f, to⟩]
  | many (to : Str) (fs : List Str) :
      EntryItems (.string to) (.sequence (fs.map .string)) (fs.map fun f => ⟨f, to⟩)
  | none (key : YValue) : EntryItems key (.sequence []) []

/-- A list of entries and its items, in order. -/
inductive EntriesItems : List (YValue × YValue) → List Item → Prop
  | nil : EntriesItems [] []
  | cons {k v : YValue} {is js : List Item} {l : List (YValue × YValue)} :
      EntryItems k v is → EntriesItems l js → EntriesItems ((k, v) :: l) (is ++ js)

/-! ## Documents -/

/-- The document is a mapping whose first entry for `name` is `v`. -/
def HasField (data : YValue) (name : Str) (v : YValue) : Prop :=
  ∃ pre post, data = .mapping (pre ++ (.string name, v) :: post) ∧ ∀ e ∈ pre, e.1 ≠ .string name

/-- The document is no mapping or has no entry for `name`. -/
def NoField (data : YValue) (name : Str) : Prop :=
  ∀ l, data = .mapping l → ∀ e ∈ l, e.1 ≠ .string name

/-- The items a document describes. -/
def DocItems (data : YValue) (items : List Item) : Prop :=
  (NoField data (c! "items") ∧ items = []) ∨
  ∃ l, HasField data (c! "items") (.mapping l) ∧ EntriesItems l items

/-- The modifiers a document describes. -/
def DocSteps (data : YValue) (steps : List Step) : Prop :=
  (NoField data (c! "modifiers") ∧ steps = []) ∨
  ∃ l, HasField data (c! "modifiers") (.mapping l) ∧ DescribesAll l steps

/-- The document's first bad entry of `modifiers` is one that is reported as an error. -/
def DocRejected (data : YValue) (msg : Str) : Prop :=
  ∃ pre steps k v post, HasField data (c! "modifiers") (.mapping (pre ++ (k, v) :: post)) ∧
    DescribesAll pre steps ∧ Rejected k v msg

/-- The document describes a table without empty cells. -/
def DocTable (data : YValue) : Prop := ∃ items, DocItems data items ∧ CellsNonEmpty items

end Chanoma
