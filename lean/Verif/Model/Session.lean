import Verif.Model.Cli
/-! # `bindings/python3/src/lib.rs`: a Python program that uses the module

The classes of the module hold Rust values; whatever is passed to them or taken from them is copied (`clone`,
extraction of a `Vec`, `pyo3(get)`).  A program is a list of statements; the objects it has made are numbered
in the order they were made, each kind of object apart.  Simplification: a statement about an object that has
not been made raises an exception; objects are never deleted.  Items have no methods and cannot be changed. -/

namespace Chanoma

/-- The objects a program has made: Python lists of items, objects with an attribute `items`
(`/repo/bindings/python3/src/lib.rs:87-91` and `/repo/bindings/python3/src/characters_set.rs:5-103`), tables
(`/repo/bindings/python3/src/lib.rs:124-127`) and normalisers (`/repo/bindings/python3/src/lib.rs:8-11`). -/
structure PyHeap where
  lists : List (List Item) := []
  corrs : List (List Item) := []
  tables : List Table := []
  normalisers : List Chanoma := []

/-- What may differ from statement to statement: hash orders and the state of the environment. -/
structure PyMoment where
  σ : Oracle
  σs : Nat → Oracle
  world : World

/-- A statement. -/
inductive PyStmt where
  /-- a list of items is written down -/
  | newList (items : List Item)
  /-- `list.append(item)` -/
  | append (list : Nat) (item : Item)
  /-- `Correspondence(list)` -/
  | newCorr (list : Nat)
  /-- `characters_set.Alphabets()` and so on -/
  | newSet (s : PyCharactersSet)
  /-- `corr.items` -/
  | getItems (corr : Nat)
  /-- `Table(preset, csv, yaml)` -/
  | newTable (preset : Bool) (csv yaml : Option Str)
  /-- `table.add(corr)` -/
  | tableAdd (table corr : Nat)
  /-- `table.add(x)` with an `x` that has no list of items as attribute `items` -/
  | tableAddOther (table : Nat)
  /-- `Chanoma(table, neologdn, preset, rc, configfile)` -/
  | newChanoma (table : Option Nat) (neologdn preset rc : Bool) (configfile : Option Str)
  /-- `normaliser.normalize(text)` -/
  | normalize (normaliser : Nat) (text : Str)

/-- What a statement gives: a text, nothing to be seen, or an exception. -/
inductive PyAnswer where
  | done
  | text (s : Str)
  | raised
  deriving DecidableEq, Repr

/-- One statement, as in `/repo/bindings/python3/src/lib.rs`: `Correspondence.__new__` (93-99) and the getter
(89-90) copy the list; `Table.__new__` (133-149); `Table.add` (151-155), which fails in line 152 if there is nothing
to extract; `Chanoma.__new__` (23-48) copies the table (line 39); `Chanoma.normalize` (50-52). -/
def PyStmt.run (m : PyMoment) (h : PyHeap) : PyStmt → PyHeap × PyAnswer
  | .newList items => ({ h with lists := h.lists ++ [items] }, .done)
  | .append i x => match h.lists[i]? with
    | some l => ({ h with lists := h.lists.set i (l ++ [x]) }, .done)
    | none => (h, .raised)
  | .newCorr i => match h.lists[i]? with
    | some l => ({ h with corrs := h.corrs ++ [l] }, .done)
    | none => (h, .raised)
  | .newSet s => ({ h with corrs := h.corrs ++ [s.items m.σ] }, .done)
  | .getItems c => match h.corrs[c]? with
    | some l => ({ h with lists := h.lists ++ [l] }, .done)
    | none => (h, .raised)
  | .newTable preset csv yaml => match pyTableNew m.σ m.world preset csv yaml with
    | .ok t => ({ h with tables := h.tables ++ [t] }, .done)
    | _ => (h, .raised)
  | .tableAdd t c => match h.tables[t]?, h.corrs[c]? with
    | some tb, some l => ({ h with tables := h.tables.set t (pyTableAdd m.σ tb l) }, .done)
    | _, _ => (h, .raised)
  | .tableAddOther _ => (h, .raised)
  | .newChanoma table neologdn preset rc configfile =>
    let make (t : Option Table) : PyHeap × PyAnswer :=
      match pyChanomaNew m.σ m.world ⟨t, neologdn, preset, rc, configfile⟩ with
      | .ok c => ({ h with normalisers := h.normalisers ++ [c] }, .done)
      | _ => (h, .raised)
    match table with
    | none => make none
    | some i => match h.tables[i]? with
      | some t => make (some t)
      | none => (h, .raised)
  | .normalize n text => match h.normalisers[n]? with
    | some c => match pyNormalize c m.σs text with
      | .ok s => (h, .text s)
      | _ => (h, .raised)
    | none => (h, .raised)

/-- A program: each statement is run at a moment of its own; an exception does not end it (it is caught). -/
def PyHeap.after (h : PyHeap) (program : List (PyMoment × PyStmt)) : PyHeap :=
  program.foldl (fun h s => (s.2.run s.1 h).1) h

end Chanoma
