# Formal model of booink/chanoma in Lean 4

## 1. Approach

The library is a pure text-rewriting pipeline plus configuration loading. It is modelled
function by function as total, computable Lean functions (`lean/Verif/Model/*`, each
definition with a comment citing the file and lines of /repo it models). Each property
has a small specification that does not mention the model's helpers
(`lean/Verif/Spec/*`), and theorems relating the two (`lean/Verif/Props/*`, with helper
lemmas in `lean/Verif/Proofs/*`). `lean/Verif/Props/Conformance.lean` runs the test cases of
/repo/tests and the documentation examples through the model. Mathlib is not used.

### Representation choices

| Rust | Lean model | Remark |
|---|---|---|
| `char` | `Char` | both are exactly the Unicode scalar values |
| `String`/`&str` | `Str := List Char` | a Rust string is valid UTF-8, i.e. a list of scalar values; `len()` is the sum of UTF-8 sizes, order is compared on the UTF-8 bytes |
| `OsStr`, `Path` | `OsStr := List UInt8` | Unix: arbitrary bytes |
| file contents, stdin | `List UInt8` | decoded by a model of `str::from_utf8` |
| `usize` | `Nat` | no overflow (lengths are bounded by memory); every *subtraction* is checked and panics on underflow |
| `v[i]`, `unwrap()` | explicit `Outcome.panic` | |
| `Result<_, Error>` | `Outcome.err` | |
| `HashMap`, `HashSet` | insertion-ordered association list; **iteration** goes through an `Oracle`, an arbitrary permutation of the entries | theorems quantify over all oracles, i.e. over all hash seeds; every permutation is some oracle's (`Oracle.exists_iter`) |
| `BTreeMap` | association list kept sorted by key | |
| `Vec::sort` | insertion sort | any sort that returns a sorted permutation gives the same list, because the order is antisymmetric (proved) |
| `log_enabled!(Debug)` | a `Bool` parameter | |
| environment, file system | a `World` record of functions | arbitrary, universally quantified; it does not change during a call, except in C86, where each access meets one of its own |
| `serde_yaml` parser | arbitrary function `List UInt8 → Option YValue` in `World` | not modelled, quantified over |
| `csv` reader / writer | executable byte-level state machine for the default dialect | see the trusted base |

## 2. Plan per property

See `properties.jsonl` for the English. "neg" means: the property as a user would
state it is false of the code; the negation is proved with a concrete witness together with
the strongest true part, named `..._partial` where the full statement is kept in view.

| id | what is modelled | how it is proved |
|---|---|---|
| C01, C02 | `CharacterConverter::from_tables`, `modify` | the index-bucket loop is shown equal to `List.map` for every bucket order |
| C03–C06 | `Correspondence` `+`, `-`, `+=`, `-=`, `Table`, `TableBuilder` | refinement to sets of items, induction on operation lists |
| C07, C08 | the four character sets, generated from the Rust source | membership of folded `+`, then a kernel computation over the finite table lifted to all characters |
| C09–C13 | the simple modifiers | induction on the text |
| C14, C15 | `str::replace`, `LigatureTranslator` | strong induction on the text; C15 is neg + partial, with an exact criterion for single-character keys and for keys that do not overlap (the two orders compared on a key between pieces of another key), a reduction to two rules, and a bound on the texts that decide for arbitrary rules (C79's machines) |
| C16–C19 | `Neologdn` | C15's partial theorem instantiated with the built-in table; C18, C19 neg + partial |
| C20–C22 | `Chanoma` | induction on the pipeline / on the API history; C21 neg for the empty pipeline |
| C23–C27 | `modify_with_positions` | induction; C25–C27 neg + partial |
| C28–C31 | `file.rs`, `item_map`, CSV dialect | CSV printer/parser round trip by induction; C29 neg + partial |
| C32–C36 | `configuration.rs`, YAML loading | case analysis over documents; C32 neg + partial, with the exact class of tables that are honoured; C33, C34 exact characterisations |
| C37–C41 | path functions, rc discovery | quantified over worlds; induction on byte paths |
| C42, C43 | `FromStr` impls | induction on the argument lists; exact outcome for every string |
| C44–C46 | `TableBuilder` imports, CLI, Python binding | unfolding + the theorems above |
| C47, C48 | CJK table | kernel computation over the finite table lifted to all characters |
| C49 | UTF-8 order | arithmetic on the encoding |
| C50 | `output` binary + reader | C29 instantiated to the preset |
| C51 | the predefined sets | kernel computation over the finite tables lifted to all characters |
| C52 | `Position` equality and order | order laws; distinct indices within a record by induction |
| C53 | `Error` texts, `Path::display`, exceptions of the binding | case analysis; injectivity of the texts; the display against a relation (`Spec/Display.lean`) by byte arithmetic |
| C54 | `to_csv_writer`, `to_serialized_corr`, `output` binary | exact texts by induction over the groups |
| C55 | `TableBuilder::from_csv_path`, `from_yaml_path` | case analysis over the world, comparison with C44 |
| C56, C57 | tables after arbitrary histories | C01, C03, C04, C51 combined; greatest element of a strictly sorted list |
| C58, C59, C60 | whole pipelines | commutation of each stage of neologdn with the map, sublists, cuts |
| C61 | `Neologdn`, preset | the normal-form lemmas of C17, C19 in both directions; a preimage with tildes between the `ー` |
| C62 | several tables | C01 and C22 combined; append and map of item lists |
| C63 | `normalize_with_positions` of converters | induction over the positions, then over the pipeline |
| C64 | macros, `from_char`, all `FromStr` impls, `from_yaml_key_value` | all notations build the modifier of one abstract step; case analysis and induction on the parameter lists |
| C65 | `from_config_file`, `from_table` | from C01 and C35; last items and last pairs agree |
| C66 | all functions with an oracle | equality of the functions for two oracles; invariant over the pipeline, from C05, C15, C16, C20, C52 |
| C67 | `preset`, `neologdn` | corollary of C07, C11, C16: no step but the spaces and tildes touches ASCII |
| C68 | sequences of `use_preset`, `use_neologdn` | C58 (they commute), the preset is idempotent, neologdn is stable from the second time on (C19); one text tells the six cases apart |
| C69 | the text of `examples/file/table.csv`, the data of `table.yaml` | C35 for the parsed file; kernel evaluation of the parse and of the listed code points; everything else is unlisted |
| C70 | `use_preset`, `use_neologdn` on texts with U+FF9E, U+FF9F | C60 for these separators; the letters by kernel evaluation over U+FF66..U+FF9D |
| C71 | pairs of modifiers other than ligature translator | commutation by induction under the condition, a text that tells the orders apart without it; with neologdn through `neologdnSpec`, whose stages commute one by one |
| C72 | pipelines of converters, reducers and trims; every modifier for the converse | one modifier at a time: the run decomposition for the reducer, `trimPos_eq` for trim, C63 for converters; then induction over the pipeline; two texts with one record for each lossy modifier; for a one-character rule the first occurrence in the output fixes the first occurrence in the input |
| C73 | every modifier through its YAML notation; the ligature translator with one rule; pipelines of converters and eliminators | one equation for `f (a ++ b)` per modifier; for neologdn the composition of the three steps, each with its own cut condition |
| C74 | pipelines of the five modifiers that work piece by piece; neologdn | each modifier keeps prefixes and suffixes, closed under composition; for neologdn an exact equation for a joined text from C73's lemmas |
| C75 | `modify_with_positions` of every modifier | the closed form of the positions of C23, C24 and C25, each bounded by induction |
| C76 | `Chanoma::from_table` of any tables | C01; injective iff surjective by a pigeonhole argument on the characters that are replaced |
| C77 | all modifiers | every step keeps a homomorphism from texts that erases the mentioned characters; induction over the records of the pipeline |
| C78 | `Chanoma::from_table`, `add_table`, `use_preset`, CSV export and loading | a table with one item per changed character (there are finitely many characters); C22 for the calls, C28 and C29 for the file |
| C79 | all modifiers, `Chanoma::normalize` | every modifier is computed by a (guessing) machine with finitely many states, so is every pipeline; in a long text both machines are three times in the same pair of states, and the text with one of the two loops, or both, left out decides about the whole text |
| C80 | all modifiers, `Chanoma::normalize` | every modifier commutes with the renaming; induction over the pipeline. With C77 it gives the alphabet in C79 |
| C81 | `LigatureTranslator`, `Chanoma::normalize` | induction over the scan of a rule, factors multiply along rules and modifiers; for the exponential order the keys `b…ba` |
| C82 | `Opts::parse` of `main.rs` (what `clap` makes of the struct, modelled from its documentation), `main` | the loop over the arguments against a relation saying what each argument gives; both directions by induction |
| C83 | `from_config_file`, `load_rc` | two files or environments that agree on what the specification mentions give equal results: the loaders are rewritten to functions of these parts |
| C84 | `Opts::parse` of `bin/output.rs` (as for C82), `Format::from_str`, `main` | one step of the loop over the arguments against the five notations of the option, both directions; at most one occurrence because values accumulate |
| C85 | the derived `PartialEq` of the modifiers, `HashMap` and `HashSet` equality | entries of obtained modifiers are distinct, so equal size and inclusion mean a permutation; tables by `itemSubst` |
| C86 | `from_config_file`, `load_rc` with an environment of its own for each access (`Model/Changing.lean`) | the loader is rewritten to the two documents; the mixture is again a document, so C33 and C35 apply; the search by induction on the candidates and on the found files |
| C87 | the three `log::debug!` calls and the functions around them, `main` with log, output and status (`Model/Logging.lean`) | erasing the log gives the functions of the other properties; induction over the pipeline for the records, case analysis for search and outcome |
| C88 | all modifiers and `normalize` as modelled; `butLast d` and `LooksBack` in `Spec/Typing.lean` | each modifier that does not look back is monotone for prefixes; for the others a bound on how far a change reaches back, closed under composition; a family of texts for the refutation |
| C89 | all modifiers and `normalize` as modelled; `backwards`, `OverlapsAgree` in `Spec/Typing.lean` | each modifier commutes with `reverse` (induction on the text); for a rule, induction with the case of a straddling occurrence, where the criterion enters; necessity from the overlap itself |
| C90 | as C88 and C89 | C88 for texts read backwards; for the sound marks a separate induction; texts of `a` only for the refutation |
| C91 | the three `modify_with_positions` that report something, and `normalize_with_positions` | the reports of a converter as a list computed from the text, which splits at the end of the first text; the loop of the reducer started in the state the first text leaves, with all offsets shifted; for trim the number of spaces at both ends; induction on the chain of converters |
| C92 | `modify` of all modifiers | `SameIn`: no difference between two surroundings; `deciding`: the surroundings that decide. The dotted-space rule and neologdn are decomposed at the two seams (C73, C74); what a neighbour can see of a text (`SameEdges`, first and last prolonged sound mark) is read off the deciding results. One ligature rule: after a text only the beginning of a key at its end still counts. `C92_needed` gives a pair for each surrounding that only it tells apart |
| C93 | `normalize` and `modify` of all modifiers | `Near n`: the same but for n characters at one place. For each modifier: what stands around a place decides all of the result but a window of bounded length, from the laws for texts put together (C73, C74); for a ligature rule only a piece shorter than the key on either side counts, on the right by reading backwards (C89); then induction on the pipeline. Sharpness and the two cases without bound by explicit texts |
| C94 | `normalize`, `modify` of converter and eliminator, `from_config_file` | Such a pipeline is `filterMap f` for some `f` on characters (induction on the pipeline); the files are read with C35. For the converter in front: if a character is dropped, some character is not among the results (there are finitely many characters), so that it can stand for all that is dropped |
| C95 | `normalize` repeated (`Chanoma.again`), `modify` of all modifiers | A pipeline without ligature translators makes no text longer and, if the length stays, works character by character; the texts of bounded length are finitely many, so one comes back. On a circle the length stays, so every character goes round. Three passes: the first settles the eliminators, the second the spaces, the third the reducers (a step that is settled is not undone by the others, from C71). The other cases by explicit texts and induction |
| C96 | `normalize`, the preset table, `modify` of all modifiers but the ligature translator | Converters map each character, so the sources of a text are the product of the sources of its characters (induction on the result). For the preset the table is injective on the characters it changes and its values are closed (kernel computation over the table, then lifted to all characters by C07). Other modifiers: spaces or dropped characters at the end do not change the result |
| C97 | `TableBuilder::add_corr`, `remove_corr`, `preset`, `build` | By C03 the calls are set operations; induction on the list of calls with three cases per item (last call adds, last call removes, no call). Equality of the whole builders from the canonical listing (C04), for removals alone from the multiplicities of C06 |
| C98 | `modify` of all modifiers, YAML descriptions of modifiers | Each described modifier is a function of the text (C35); for every pair of kinds a text of at most three characters on which they differ, for pairs of one kind texts of one or two characters. One rule: a text of one character, the key, `cc`, `ccc` or `1 1` shows the difference |
| C99 | the objects of the Python module and statements about them (`PyStmt.run`), each at a moment of its own | invariants of one statement, induction on the program |
| C100 | the modifiers as in C10 to C17; texts with the same characters are permutations of each other (`List.Perm`) | the function of one character for converters and eliminators; two short texts for the others; for a rule, the key and a rearrangement of it in which it does not occur |
| C101 | runs of the program (C87), each reading what the one before printed (`pipe`, `Verif/Spec/Pipe.lean`) | induction on the programs; C45 and C87 for one run, C68 for the options, C77 for line ends |
| C102 | loading of CSV files (C28); files given by their text (`LoadsItems`) | the reader as an automaton: invariance of its run outside of quotes |
| C103 | normalisers of CSV files (C35) that differ in one row or in the order of two (`TableFile`) | the substitution of a concatenation of item lists (C62) |
| C104 | `load_rc` (C38) in worlds that differ only in the home and the current directory (`away`, `onlyIn`, `workingIn`) | the list of places is a concatenation; the pipeline of a concatenation runs one after the other; for tables the substitution is idempotent exactly under the condition |
| C105 | the modifiers as in C64; `≤` on lists of characters | a strictly monotone function on characters is the identity; a pair of texts as counterexample for each other modifier |
| C106 | the modifiers and pipelines of C93; edit distance as an inductive relation (`Spec/Edits.lean`) | one edit is a difference at one place (C93), and such a difference is made of edits; the numbers of characters of a kind bound the distance from below |
| C107 | the pipelines of C74 and neologdn; `<:+:` (is a part of) | for each modifier a part of the result is traced back to a part of the text, keeping the ends free of spaces; the steps compose |
| C108 | all modifiers; `reading g` (what `g` takes from each character), the readings `digitOf`, `letterOf`, `kanaOf` and `numbers` | deleting what is not read and replacing by what is read alike keeps a `flatMap`; conversely one or two characters show what is needed; for the preset and neologdn the finitely many characters they change are checked |
| C109 | all modifiers but the ligature translator; `IdleAfter`, `IdleBefore` (conditions on two configurations) | for each pair of kinds, texts of at most four characters show that the condition is needed, and the description of each modifier's results shows that it suffices; in a pipeline the runs around the pair are compared with the hash orders moved by one place |
| C110 | the ligature translator with one rule, `Chanoma.again` | a text is read as a list of kept characters and keys; a shortest such list that leaves the key behind is bounded item by item; passes come to an end because the length, or for equal lengths the number the text stands for in base 0x110000, can only go one way |
| C111 | all modifiers, `Chanoma.again`; `ModifierKind.Shortens` | a pass never lengthens; if it keeps the length it only writes characters for characters, and does the same under every hash order; so after K + 1 passes the text is shorter or at rest |
| C112 | the ligature translator with any rules; `ValuesApart` | a rule leaves neither its own key nor a key that was not there, as an occurrence would have to start in the value, or the value in it; then along the rules in the order of the hash map |
| C113 | the ligature translator with one rule beside every other modifier; `NeverMade` | which texts the other modifier can make is known (C61 for neologdn); a part of such a text put between two digits is again one; before a modifier the replacements are made one after the other |
| C114 | all modifiers, `Chanoma.again`; `weight`, `ModifierKind.Lightens` | a pass makes the text lighter, or leaves it as it is under every hash order; deleting makes lighter as weights are positive; for a converter without circles the weight counts the steps until a character stays |

## 3. Trusted base

* **Lean's kernel** (4.33.0). No axiom is added; no `sorry`, `admit`, `native_decide`, `bv_decide`.
* **Axioms.** Only the three standard ones of Lean occur: `propext`, `Quot.sound`,
  `Classical.choice`. `AXIOMS.txt` lists the axioms of every theorem named in the manifest,
  as printed by `#print axioms`.
* **The reading of the Rust source.** The model was written by hand from /repo; nothing was
  executed. The character tables were transcribed by a script. `Conformance.lean` checks the model on the
  expectations written in the repository's own tests.
* **Functions of the standard library** as described in their documentation
  (`Verif/Model/Rust.lean`): `str::replace`, `trim_matches`, `split`, `lines`, `from_utf8`, `from_utf8_lossy`
  (for `Path::display`), `char_indices`, `is_ascii_alphanumeric`, `is_whitespace`, `Path::{extension,
  file_name, join, push}`, `sort`, `BufRead::read_line`, `==` of `HashMap` and `HashSet`.
* **The `csv` crate** (its source is not available here): written from its documented behaviour for the
  settings used by the code (`flexible(true)`, else defaults) - comma, double quotes with doubling, `\r`, `\n` and `\r\n` as record
  ends, empty lines skipped, first record taken as header, a leading byte order mark
  dropped, records of any length, decoded as UTF-8 except the first; the writer quotes
  only when needed and ends records with `\n`.
* **`serde_yaml`**: only its data model (`YValue`, mappings as lists of pairs with distinct keys) and
  accessors; parsing and printing YAML text are not modelled (an arbitrary parser in `World`).
* **Command line.** `clap` 3.1, whose source is not at hand, treats `Opts` of `main.rs` and of
  `bin/output.rs` as written in `Verif/Model/CommandLine.lean` and `Verif/Model/OutputLine.lean` (only C82
  and C84 depend on this).
* **Rust programs** end with status 0 when `main` returns and 101 when it panics, `env_logger` shows what is
  logged at the level set, and standard output can be written (only C87 depends on this).
* **The file system and environment** answer consistently during one call; `canonicalize` is an
  arbitrary partial function.  C86 drops the first assumption for the loading of configurations: there
  each access sees a state of its own, and only opening a file and reading it to its end is one step.

## 4. What is modelled and what is not

Modelled: all functions of `/repo/src` (`chanoma.rs`, `characters_set*`, `configuration.rs`, `corr*`,
`error.rs`, `file.rs`, `file_extension.rs`, `modifier*`, `modifier_kind.rs`, `position.rs`, `table.rs`,
`main.rs`, `bin/output.rs`), its four exported macros, the files of `/repo/examples`, and of `/repo/bindings/python3/src`, except:

* trivial glue: `Default`, `Debug` and `Clone` impls, `From<X> for ModifierKind`, `as_ref`, `deref`,
  `Table::corr`;
* the texts `clap` prints (its behaviour is modelled from its documentation), the texts of log messages (the values they
  show are modelled, C87), the pyo3 glue (argument conversion, borrowing at run time; what is copied is modelled, C99) and the Cargo features;
* the text syntax of YAML and the texts of foreign errors (I/O, csv, serde_yaml), which are parameters;
* benches, time and memory.

## 5. Where code and documentation disagree

Found while proving; each is a theorem or an example.

* `items` as a list of `{from, to}`, as shown in the README and `examples/file/table.yaml`, panics (C34).
* Exporting a table to CSV and importing it loses the group with the least target (C29, C50).
* Multi-character cells are silently cut to their first characters (C32).
* Loading a configuration with an empty cell, `items` of another shape, or a malformed modifier panics
  instead of returning an error (C33, C43).
* Neologdn is not idempotent and can leave `ーー` (C18, C19); the order of interfering ligature rules depends on
  the hash seed (C15).
* Half-width voiced katakana keep their half-width marks (C70), although the README says that half-width katakana
  become full-width.
* With debug logging an empty pipeline panics (C21); so does `ModifiedRecords::text` without records, for which a
  comment promises the empty text.
* Reported positions: the reducer does not locate its runs (C25), four modifiers never report (C26), the
  units of the fields differ between modifiers (C27).
* `.yml` is neither discovered nor accepted in `CHANOMARC`; a `CHANOMARC` that is not UTF-8 is ignored; one
  without file or with a foreign extension panics or errors as stated in C37–C40.
* CJK square table: U+339F becomes `mm`, U+33CD `K.`, U+33D7 `pH`, U+33D9 `ppm`; `㎤` is missing while `㎣` is
  listed twice (C47, C48).
* A configuration with misspelt keys loads and does nothing (C83); `output` prints CSV for every unknown format
  (C84).
* The program ends with status 0 when standard input cannot be read or is not UTF-8, and prints the error on standard
  output (C87).
* Of two conflicting items the one with the greater target wins, not the last one added (C57); loading the same
  file by `from_csv_path` and by `add_from_csv` can give different normalisers (C55).
* A directory that is searched twice is loaded twice: in the home directory the rc files there are applied twice, and
  so a text may come out differently from elsewhere (C104).
* Neologdn deletes tildes also between numbers: `10～20` becomes `1020` (C108).

## 6. Testing the theorems against wrong programs

`seeded/LOG.jsonl` has one line per edit of the model in a scratch copy: `definition` and `file`, the `edit`, the
`claim` it breaks, `outcome` (`killed`: the build failed), `theorems_failed` (the first
declarations that no longer check; declarations depending on them are not built and so not listed),
`claims_false_on_samples` (an executable version of the theorem *statements*, run on the edited model
with sample inputs: these statements are false of the wrong program, so no other proof of
them can exist), and `theorems_tightened`. A property theorem whose statement is false on samples would have been
caught even if a cleverer proof had repaired the helper lemmas.

## 7. State

| id | title | status |
|---|---|---|
| C01 | Table conversion is a per-character substitution | proved |
| C02 | Building a converter panics exactly on an empty cell | proved |
| C03 | A table built by add/remove behaves like a set of items | proved |
| C04 | Listings are canonical | proved |
| C05 | Correspondence addition is a join | proved |
| C06 | Correspondence subtraction is set difference | proved |
| C07 | The preset substitution is exactly the documented width folding | proved |
| C08 | Preset normalisation is idempotent and length preserving | proved |
| C09 | The eliminator deletes exactly the listed characters | proved |
| C10 | The reducer collapses exactly the runs of one character | proved |
| C11 | The dotted-space rule | proved |
| C12 | The dotted-space rule subsumes trim and space reduction | proved |
| C13 | Trim removes exactly the leading and trailing half-width spaces | proved |
| C14 | A single ligature rule replaces leftmost non-overlapping occurrences | proved |
| C15 | Ligature translation does not depend on hash order | partial |
| C16 | Neologdn normalisation is a deterministic, total function with a stated meaning | proved |
| C17 | Neologdn output contains no unnormalised residue | proved |
| C18 | Neologdn output has no repeated choonpu | partial |
| C19 | Neologdn normalisation is idempotent | partial |
| C20 | normalize and normalize_with_positions agree | proved |
| C21 | Debug logging does not change the result | partial |
| C22 | Modifiers run in registration order | proved |
| C23 | Converter positions describe exactly the substitutions | proved |
| C24 | Trim positions describe exactly the trimmed ends | proved |
| C25 | Reducer positions locate the reduced runs | partial |
| C26 | Every change is covered by a reported position | partial |
| C27 | Position units are uniform | partial |
| C28 | CSV rows become items | proved |
| C29 | CSV export then import gives the same table | partial |
| C30 | YAML export then import gives the same table | proved |
| C31 | item_map groups losslessly | proved |
| C32 | Multi-character cells are applied as documented or rejected | partial |
| C33 | Exactly when loading a configuration file panics | proved |
| C34 | Exactly which YAML `items` load: a mapping does, the documented list panics | proved |
| C35 | YAML pipelines run modifiers in file order, then items | proved |
| C36 | Unknown modifiers are reported as errors | proved |
| C37 | CHANOMARC takes precedence | proved |
| C38 | rc files are searched in the documented order | proved |
| C39 | .yml is accepted by from_config_file only | proved |
| C40 | The exact outcome of CHANOMARC | proved |
| C41 | File extensions are recognised exactly | proved |
| C42 | Modifier strings parse back | proved |
| C43 | Exactly when parsing a modifier string panics | proved |
| C44 | Failed imports leave the builder unchanged | proved |
| C45 | The CLI prints the normalised input | proved |
| C46 | The Python binding equals the Rust API | proved |
| C47 | What the CJK compatibility table lists | proved |
| C48 | A converter using the CJK table keeps only the first character of each expansion | proved |
| C49 | Item order is code point order | proved |
| C50 | Exported preset CSV re-imports except the ideographic space | proved |
| C51 | Each predefined set is one class of characters | proved |
| C52 | Equality and order of positions agree, and identify the positions of a record | proved |
| C53 | Error texts name what is wrong | proved |
| C54 | What is exported, character by character | proved |
| C55 | A builder made from a file | proved |
| C56 | The preset without some of its items | proved |
| C57 | Between conflicting items the greatest wins, not the last added | proved |
| C58 | Preset and neologdn commute and differ only on the full-width equals sign | proved |
| C59 | Normalising never makes a text longer | proved |
| C60 | Texts can be normalised line by line | proved |
| C61 | Exactly which texts stay as they are, and which can come out | proved |
| C62 | Tables in sequence chain, items of one table do not | proved |
| C63 | Substitutions can be undone from the reported positions | proved |
| C64 | The notations of a modifier agree | proved |
| C65 | One-character rules mean the same in every format | proved |
| C66 | Where the hash order can show | proved |
| C67 | ASCII texts | proved |
| C68 | Any sequence of presets and neologdns | proved |
| C69 | What the shipped example table does | proved |
| C70 | Half-width sound marks are never composed | proved |
| C71 | Which modifiers may be exchanged or repeated | proved |
| C72 | Which modifiers can be undone from what they report | proved |
| C73 | At which places a text can be cut | proved |
| C74 | What is contained in a text stays contained in the normalised text | proved |
| C75 | The numbers in reported positions | proved |
| C76 | Which tables do the same, and which can be reversed | proved |
| C77 | What is not mentioned stays | proved |
| C78 | What can be written as a table | proved |
| C79 | Short texts tell whether two converters do the same | proved |
| C80 | Characters that are not mentioned are all treated alike | proved |
| C81 | How much longer a text can get | proved |
| C82 | Which command lines are accepted, and what they mean | proved |
| C83 | What a configuration depends on, and what is silently ignored | proved |
| C84 | Which command lines of the output program are accepted, and what they print | proved |
| C85 | When two modifiers compare equal | proved |
| C86 | What is loaded if a configuration changes meanwhile | proved |
| C87 | What a run logs, prints and returns | proved |
| C88 | What is settled while a text is still being written | proved |
| C89 | Texts read backwards | proved |
| C90 | What is settled if something is put in front of a text | proved |
| C91 | The positions of two texts put together | proved |
| C92 | When one text may be put in the place of another anywhere | proved |
| C93 | A change in a text has only local effect | proved |
| C94 | Converters and eliminators, however many, fit in one file | proved |
| C95 | What becomes of a text that is normalised again and again | proved |
| C96 | How many texts come out the same | proved |
| C97 | Which calls on a table builder come to the same | proved |
| C98 | Texts of three characters tell the modifiers apart | proved |
| C99 | In Python, what an object holds is its own | proved |
| C100 | Which modifiers mind the order of the characters | proved |
| C101 | Programs joined by a pipe | proved |
| C102 | Which CSV files load the same, and what files put together load | proved |
| C103 | What one row of a table file contributes | proved |
| C104 | In the home directory rc files count twice | proved |
| C105 | Whether a sorted list of texts stays sorted | proved |
| C106 | How many edits the results are apart | proved |
| C107 | What is found in a normalised text stands in the text | proved |
| C108 | Which readings of a text are kept | proved |
| C109 | Which modifiers are superfluous beside another | proved |
| C110 | When a ligature rule has nothing left to do | proved |
| C111 | Pipelines whose ligature rules shorten come to rest | proved |
| C112 | Rule maps that are done at once | proved |
| C113 | When a ligature rule is superfluous beside another modifier | proved |
| C114 | Pipelines that make texts lighter come to rest | proved |

The partial ones are claims that are false of the code. For each, the theorems give a refutation and say exactly,
or under the stated hypotheses, what holds instead; see the notes in `MANIFEST.json`.
