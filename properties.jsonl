{"id": "C01", "title": "Table conversion is a per-character substitution", "statement": "For every table whose items all have a non-empty `from` and `to`, Chanoma::from_table(table).normalize(text) succeeds and returns the text in which every character c is replaced by the first character of the `to` of the last listed item whose `from` starts with c, and is left unchanged if there is no such item; nothing is inserted, dropped or reordered. A converter built from several tables is the converter of all their items in order, so that the last applicable item of the last table counts.", "quantifier": "every table, every text, every hash iteration order, debug logging on or off", "why_tests_cant": "The set of texts and tables is infinite; a unit test fixes a handful of strings. Rust's HashMap/HashSet iteration order is randomised per process; a test run samples one order.", "anchors": ["src/chanoma.rs: Chanoma::from_table, normalize", "src/modifier/character_converter.rs: CharacterConverter::from_tables, modify"]}
{"id": "C02", "title": "Building a converter panics exactly on an empty cell", "statement": "Chanoma::from_table / add_table panics if and only if the table contains an item with an empty `from` or an empty `to`; otherwise it succeeds; a converter built from several tables panics as soon as one of them has such an item.", "quantifier": "every table", "why_tests_cant": "The offending item can be anywhere in a table of any size.", "anchors": ["src/modifier/character_converter.rs: CharacterConverter::from_tables"]}
{"id": "C03", "title": "A table built by add/remove behaves like a set of items", "statement": "After any sequence of add / remove (add_corr / remove_corr / preset) operations on a table, items() contains exactly the items of the set obtained by applying union / difference in the same order to the initial items; TableBuilder::new starts with no items and origin New, Table::builder with the items and the origin of the table, and the operations keep the origin.", "quantifier": "every operation sequence of any length, every correspondence, every hash order", "why_tests_cant": "Histories are unbounded and the hash order varies.", "anchors": ["src/table.rs: Table::add, Table::remove, TableBuilder", "src/corr.rs: AddAssign, SubAssign"]}
{"id": "C04", "title": "Listings are canonical", "statement": "After at least one add, items() is strictly increasing in (from, to) order, hence duplicate free, and stays so under any further adds and removes; two tables in that state have the same item set exactly if they have identical listings and exactly if they compare equal. In general correspondences compare equal exactly if they list the same items in the same order.", "quantifier": "every operation sequence containing an add, every hash order", "why_tests_cant": "Rust's HashMap/HashSet iteration order is randomised per process; a test run samples one order. Histories are unbounded.", "anchors": ["src/corr.rs: Add, AddAssign, Sub, SubAssign, PartialEq", "src/corr/item.rs: Item (derive Ord)"]}
{"id": "C05", "title": "Correspondence addition is a join", "statement": "`a + &b` lists exactly the union of both item sets, and is commutative, associative, idempotent up to canonical listing, and independent of hash iteration order. `a += &b` leaves in a the same items, and adding several correspondences one after the other, in any order, comes to adding all their items at once.", "quantifier": "every pair/triple of correspondences, every hash order", "why_tests_cant": "Rust's HashMap/HashSet iteration order is randomised per process; a test run samples one order.", "anchors": ["src/corr.rs: impl Add for Correspondence", "src/corr.rs: impl AddAssign for Correspondence"]}
{"id": "C06", "title": "Correspondence subtraction is set difference", "statement": "`a - &b` lists exactly the items of a that are not in b, with their multiplicity, sorted; `(a + &b) - &b` is a minus b, and subtracting is insensitive to the order and duplicates of b. `a -= &b` leaves in a the same items.", "quantifier": "every pair of correspondences", "why_tests_cant": "Infinite domain; duplicates and order of arbitrary lists.", "anchors": ["src/corr.rs: impl Sub, SubAssign", "src/corr.rs: impl SubAssign for Correspondence"]}
{"id": "C07", "title": "The preset substitution is exactly the documented width folding", "statement": "Chanoma::preset().normalize(text) replaces every full-width ASCII letter, digit and listed symbol by its half-width form (code point minus 0xFEE0), the four irregular symbols as documented, every half-width katakana/punctuation by its full-width form and U+3000 by a space, and leaves every other Unicode character unchanged.", "quantifier": "every text over all Unicode scalar values, every hash order", "why_tests_cant": "All 1.1 million scalar values in every context; the test suite checks a few dozen.", "anchors": ["src/characters_set.rs: ALL", "src/characters_set/{digits,punctuations,alphabets,kanas}.rs", "src/chanoma.rs: Chanoma::preset"]}
{"id": "C08", "title": "Preset normalisation is idempotent and length preserving", "statement": "Normalising with the preset a second time (or with use_preset called any number of times >= 1) changes nothing more, and the number of characters never changes.", "quantifier": "every text, every repetition count >= 1", "why_tests_cant": "The set of texts and tables is infinite; a unit test fixes a handful of strings.", "anchors": ["src/chanoma.rs: Chanoma::preset, use_preset"]}
{"id": "C09", "title": "The eliminator deletes exactly the listed characters", "statement": "character_eliminator returns the text with precisely the configured characters deleted, everything else in the original order.", "quantifier": "every character set, every text", "why_tests_cant": "The set of texts and tables is infinite; a unit test fixes a handful of strings.", "anchors": ["src/modifier/character_eliminator.rs: CharacterEliminator::modify"]}
{"id": "C10", "title": "The reducer collapses exactly the runs of one character", "statement": "consecutive_character_reducer(c) replaces every maximal run of c by a single c and changes nothing else; its result never has two adjacent c and applying it twice equals applying it once.", "quantifier": "every character, every text", "why_tests_cant": "The set of texts and tables is infinite; a unit test fixes a handful of strings.", "anchors": ["src/modifier/consecutive_character_reducer.rs: modify"]}
{"id": "C11", "title": "The dotted-space rule", "statement": "dotted_space_eliminator keeps all non-space characters in order; between two neighbouring non-space characters it leaves exactly one space if there was at least one and both neighbours are ASCII alphanumeric, and none otherwise; leading and trailing spaces disappear.", "quantifier": "every text", "why_tests_cant": "The set of texts and tables is infinite; a unit test fixes a handful of strings.", "anchors": ["src/modifier/dotted_space_eliminator.rs: modify"]}
{"id": "C12", "title": "The dotted-space rule subsumes trim and space reduction", "statement": "dotted_space_eliminator is idempotent; trimming or reducing runs of spaces before or after it does not change its result.", "quantifier": "every text", "why_tests_cant": "The set of texts and tables is infinite; a unit test fixes a handful of strings.", "anchors": ["src/modifier/dotted_space_eliminator.rs (comment lines 8-9)", "src/modifier/trim.rs", "src/modifier/consecutive_character_reducer.rs"]}
{"id": "C13", "title": "Trim removes exactly the leading and trailing half-width spaces", "statement": "trim returns the unique text that neither starts nor ends with a space (or is empty) and from which the input is obtained by adding spaces on both ends.", "quantifier": "every text", "why_tests_cant": "The set of texts and tables is infinite; a unit test fixes a handful of strings.", "anchors": ["src/modifier/trim.rs: Trim::modify"]}
{"id": "C14", "title": "A single ligature rule replaces leftmost non-overlapping occurrences", "statement": "ligature_translator with one rule f -> t (f non-empty) leaves a text without f unchanged and otherwise replaces the first occurrence and continues after it.", "quantifier": "every rule, every text", "why_tests_cant": "The set of texts and tables is infinite; a unit test fixes a handful of strings.", "anchors": ["src/modifier/ligature_translator.rs: modify"]}
{"id": "C15", "title": "Ligature translation does not depend on hash order", "statement": "ligature_translator gives the same result for every iteration order of its rule map. (False in general: rules can feed each other. Proved when no rule overlaps or feeds another, together with the simultaneous-replacement meaning; for rules whose keys are single characters, and for rules whose keys do not overlap each other or themselves, the maps for which it holds are characterised exactly; for every rule map it holds if it holds for texts made of characters of the keys and no longer than twice the square of the product of the key lengths; and whenever the order matters for a map, it matters already for two of its rules on their own, though not conversely.)", "quantifier": "every rule map, every text, every two iteration orders", "why_tests_cant": "Rust's HashMap/HashSet iteration order is randomised per process; a test run samples one order.", "anchors": ["src/modifier/ligature_translator.rs: modify"]}
{"id": "C16", "title": "Neologdn normalisation is a deterministic, total function with a stated meaning", "statement": "Chanoma::neologdn().normalize(text) always succeeds, does not depend on hash order, and equals: width folding (without '＝', with choonpu and hyphen variants unified), then runs of 'ー' collapsed, then dotted-space rule, then tildes deleted, then kana + voicing mark pairs composed.", "quantifier": "every text, every hash order", "why_tests_cant": "The set of texts and tables is infinite; a unit test fixes a handful of strings. Rust's HashMap/HashSet iteration order is randomised per process; a test run samples one order.", "anchors": ["src/modifier/neologdn.rs: Neologdn::new, modify"]}
{"id": "C17", "title": "Neologdn output contains no unnormalised residue", "statement": "The neologdn result contains no full-width alphanumeric, no half-width katakana letter, no listed hyphen or choonpu variant, no tilde, no ideographic space, no space other than single spaces between ASCII alphanumerics, and no composable kana + voicing mark pair.", "quantifier": "every text, every hash order", "why_tests_cant": "The set of texts and tables is infinite; a unit test fixes a handful of strings.", "anchors": ["src/modifier/neologdn.rs"]}
{"id": "C18", "title": "Neologdn output has no repeated choonpu", "statement": "The neologdn result never contains two adjacent 'ー'. (False: spaces or tildes removed after the reduction step can join two. Proved when the width-folded text has no space or tilde between two 'ー'.)", "quantifier": "every text", "why_tests_cant": "The set of texts and tables is infinite; a unit test fixes a handful of strings.", "anchors": ["src/modifier/neologdn.rs: modify"]}
{"id": "C19", "title": "Neologdn normalisation is idempotent", "statement": "Normalising a neologdn-normalised text changes nothing. (False; proved: true from the second pass on for every text, and true from the first pass when the first result has no adjacent 'ー'.)", "quantifier": "every text, every number of passes", "why_tests_cant": "The set of texts and tables is infinite; a unit test fixes a handful of strings.", "anchors": ["src/modifier/neologdn.rs: modify"]}
{"id": "C20", "title": "normalize and normalize_with_positions agree", "statement": "For every Chanoma with at least one modifier built through the public API, normalize_with_positions(text).text() equals normalize(text).", "quantifier": "every API history, every configuration file contents, every text, every hash order", "why_tests_cant": "Pipelines are arbitrary; neologdn's two implementations differ by one pass whose irrelevance needs proof.", "anchors": ["src/chanoma.rs: normalize, normalize_with_positions", "src/modifier/*.rs: modify_with_positions"]}
{"id": "C21", "title": "Debug logging does not change the result", "statement": "normalize(text) returns the same with debug logging enabled or disabled. (False for an empty pipeline, where it panics with debug logging on; proved for every non-empty pipeline, so exactly for these.)", "quantifier": "every API history, every text", "why_tests_cant": "The set of texts and tables is infinite; a unit test fixes a handful of strings.", "anchors": ["src/chanoma.rs: normalize", "src/modifier.rs: ModifiedRecords::text"]}
{"id": "C22", "title": "Modifiers run in registration order", "statement": "use_preset, use_neologdn, add_table append to the pipeline: after any API history the result is the composition of the registered modifiers in call order; normalize_with_positions returns one record per modifier, whose text is that modifier applied to the previous record's text.", "quantifier": "every API history, every text", "why_tests_cant": "Histories are unbounded.", "anchors": ["src/chanoma.rs"]}
{"id": "C23", "title": "Converter positions describe exactly the substitutions", "statement": "The positions reported by a table conversion are, up to order, exactly one per occurrence in the input of a mapped character, carrying that character, its replacement, its character index, its byte offset and its byte length; and replacing at those character indices reproduces the output.", "quantifier": "every table, every text, every hash order", "why_tests_cant": "The set of texts and tables is infinite; a unit test fixes a handful of strings. Rust's HashMap/HashSet iteration order is randomised per process; a test run samples one order.", "anchors": ["src/modifier/character_converter.rs: modify_with_positions"]}
{"id": "C24", "title": "Trim positions describe exactly the trimmed ends", "statement": "trim reports at most two positions: one for the leading spaces and one for the trailing spaces; cutting `length` bytes at byte `index`, or `utf8_length` characters at character `utf8_index`, of the input gives `from`, and deleting them gives the output.", "quantifier": "every text", "why_tests_cant": "The set of texts and tables is infinite; a unit test fixes a handful of strings.", "anchors": ["src/modifier/trim.rs: modify_with_positions"]}
{"id": "C25", "title": "Reducer positions locate the reduced runs", "statement": "consecutive_character_reducer reports one position per run of c, and (index, length) / (utf8_index, utf8_length) locate that run in the input. (The location half is false; proved: count, from, to, lengths, and the exact values the code reports instead.)", "quantifier": "every character, every text", "why_tests_cant": "The set of texts and tables is infinite; a unit test fixes a handful of strings.", "anchors": ["src/modifier/consecutive_character_reducer.rs: modify_with_positions"]}
{"id": "C26", "title": "Every change is covered by a reported position", "statement": "If normalize_with_positions changes a text, some position is reported. (False for the eliminator, dotted-space, ligature and neologdn modifiers, which never report positions; proved for the converter, trim and reducer, with the exact condition under which each of them reports something, and exactly which modifiers have the property.)", "quantifier": "every modifier, every text", "why_tests_cant": "The set of texts and tables is infinite; a unit test fixes a handful of strings.", "anchors": ["src/modifier/*.rs: modify_with_positions"]}
{"id": "C27", "title": "Position units are uniform", "statement": "In all reported positions `index`/`length` are a byte range and `utf8_index`/`utf8_length` a character range of the input. (False: the converter reports a character index with a byte length; the two fields are swapped with respect to trim. Negation proved, and exactly where it holds: always for trim and the modifiers that report nothing; for a converter at the positions with only ASCII before them, so on all ASCII texts, and always only if its table is empty; never always for a reducer.)", "quantifier": "every modifier, every text", "why_tests_cant": "The set of texts and tables is infinite; a unit test fixes a handful of strings.", "anchors": ["src/position.rs: Position", "src/modifier/character_converter.rs", "src/modifier/trim.rs"]}
{"id": "C28", "title": "CSV rows become items", "statement": "Loading a CSV table yields, for each record after the first one (header) in order, one item per cell but the last, whose `to` is the last cell; the first record is always skipped, even if it is not valid UTF-8. Every sequence of bytes, well-formed CSV or not, has exactly one list of records. Loading never panics and fails exactly if the file cannot be read or a record after the first is not valid UTF-8.", "quantifier": "every CSV file content (every sequence of bytes)", "why_tests_cant": "The set of texts and tables is infinite; a unit test fixes a handful of strings.", "anchors": ["src/file.rs: table_from_csv_path"]}
{"id": "C29", "title": "CSV export then import gives the same table", "statement": "Writing a correspondence with to_csv_writer and loading the file gives back the same items. (False: the writer emits no header but the reader skips the first record, so the whole group with the least `to` is lost; proved: exactly the other groups come back, for arbitrary strings incl. quotes, commas and line breaks.)", "quantifier": "every correspondence", "why_tests_cant": "The set of texts and tables is infinite; a unit test fixes a handful of strings.", "anchors": ["src/file.rs: to_csv_writer, table_from_csv_path", "src/bin/output.rs"]}
{"id": "C30", "title": "YAML export then import gives the same table", "statement": "Loading the YAML document that to_serialized_corr produces gives back exactly the same set of items (and multiplicities).", "quantifier": "every correspondence", "why_tests_cant": "The set of texts and tables is infinite; a unit test fixes a handful of strings.", "anchors": ["src/file.rs: SerializedCorr, table_from_yaml_path"]}
{"id": "C31", "title": "item_map groups losslessly", "statement": "item_map has exactly the distinct `to` values as keys in increasing order, and each key's vector lists the `from` values of the items with that `to`, in listing order.", "quantifier": "every item list", "why_tests_cant": "The set of texts and tables is infinite; a unit test fixes a handful of strings.", "anchors": ["src/corr.rs: Synthesized::item_map"]}
{"id": "C32", "title": "Multi-character cells are applied as documented or rejected", "statement": "A config item whose `from` or `to` has more than one character is honoured or rejected. (False: it is silently truncated to first characters; proved: two tables whose items agree on first characters give identical converters, so `sea`->`C` rewrites every `s`; and exactly which tables are honoured: one item is if and only if both sides are single characters or the same.)", "quantifier": "every table, every text", "why_tests_cant": "The set of texts and tables is infinite; a unit test fixes a handful of strings.", "anchors": ["src/modifier/character_converter.rs: from_tables, from_yaml_value", "tests/resources/test.csv"]}
{"id": "C33", "title": "Exactly when loading a configuration file panics", "statement": "Loading a CSV configuration file panics if and only if it decodes and some record after the first has at least two cells one of which is empty; loading a YAML file has, for every parsed document, exactly one of the outcomes loaded pipeline, stated error, panic, each characterised on the document; unreadable files, invalid contents, and unknown, missing and non-UTF-8 extensions give exactly the stated errors. (One would expect that loading never panics; witnesses show that it does.)", "quantifier": "every file content", "why_tests_cant": "An if-and-only-if over all byte contents: tests can show single panics and single successes, not that there are no others.", "anchors": ["src/configuration.rs: load_file_with_ext", "src/file.rs", "src/modifier/*.rs: from_yaml_value"]}
{"id": "C34", "title": "Exactly which YAML `items` load: a mapping does, the documented list panics", "statement": "Every YAML document whose `items` is not a mapping makes loading panic, in particular the list of {from, to} entries shown in the README and in examples/file/table.yaml; what loads is exactly a document without `items` or with a mapping from targets to a source or a list of sources, and it loads to these items in order.", "quantifier": "every YAML document", "why_tests_cant": "It quantifies over all documents; the repository's tests never load a YAML `items` list.", "anchors": ["src/file.rs: table_from_yaml_path", "README.md", "examples/file/table.yaml"]}
{"id": "C35", "title": "YAML pipelines run modifiers in file order, then items", "statement": "from_config_file on a well-formed YAML file yields the listed modifiers in file order followed by one converter for `items`; on a CSV file exactly one converter.", "quantifier": "every well-formed document, every text", "why_tests_cant": "The set of texts and tables is infinite; a unit test fixes a handful of strings.", "anchors": ["src/configuration.rs: load_file_with_ext", "src/file.rs: modifiers_from_yaml_path"]}
{"id": "C36", "title": "Unknown modifiers are reported as errors", "statement": "A YAML file with an unknown modifier name (all earlier entries being well-formed) yields exactly Err(ModifierKindParseError) with the message naming that modifier; never Ok, and never another error.", "quantifier": "every document", "why_tests_cant": "The set of texts and tables is infinite; a unit test fixes a handful of strings.", "anchors": ["src/modifier_kind.rs: from_yaml_key_value"]}
{"id": "C37", "title": "CHANOMARC takes precedence", "statement": "If CHANOMARC is set, load_rc depends only on that file: no other rc file is read, whatever exists in home or current directory. (A value that is not valid UTF-8 does not count as set: it is silently ignored.)", "quantifier": "every environment (paths as arbitrary bytes), every file system", "why_tests_cant": "The set of texts and tables is infinite; a unit test fixes a handful of strings.", "anchors": ["src/configuration.rs: Configuration::file_paths"]}
{"id": "C38", "title": "rc files are searched in the documented order", "statement": "If CHANOMARC is unset or not valid UTF-8, load_rc loads all existing files among {~/.config/chanoma, ~, cwd} x {chanomarc, .chanomarc} x {csv, yaml}, in that order, concatenating their pipelines; if there is none it yields the empty pipeline; the first failing file decides the failure.", "quantifier": "every environment (paths as arbitrary bytes), every file system", "why_tests_cant": "The set of texts and tables is infinite; a unit test fixes a handful of strings.", "anchors": ["src/configuration.rs: auto_load_dirs, auto_load_paths_from_dir, exists_file_paths, load"]}
{"id": "C39", "title": ".yml is accepted by from_config_file only", "statement": "from_config_file loads a .yml file as it does a .yaml file; but for every environment a CHANOMARC naming an existing .yml file is rejected with RcFileLoadError, and chanomarc.yml in a configuration directory is never discovered (although the README lists .yml as supported).", "quantifier": "every environment, every file system", "why_tests_cant": "The set of texts and tables is infinite; a unit test fixes a handful of strings.", "anchors": ["src/configuration.rs: valid_file_path, auto_load_paths_from_dir", "src/file_extension.rs"]}
{"id": "C40", "title": "The exact outcome of CHANOMARC", "statement": "For every environment and file system in which CHANOMARC is set to valid UTF-8, load_rc is determined: an existing file with extension csv or yaml is loaded, one with another extension or a name that is no file gives RcFileLoadError with its path, and an existing file without extension panics. (One would expect an error in the last case.)", "quantifier": "every environment, every file system", "why_tests_cant": "The set of texts and tables is infinite; a unit test fixes a handful of strings.", "anchors": ["src/configuration.rs: valid_file_path"]}
{"id": "C41", "title": "File extensions are recognised exactly", "statement": "FileExtension::from_str accepts exactly csv, yaml, yml with or without a leading dot; to_string followed by from_str is the identity; from_path depends only on the text after the last dot of the last path component. An extension that is not valid UTF-8 is an error naming the path.", "quantifier": "every string / path of arbitrary bytes", "why_tests_cant": "The set of texts and tables is infinite; a unit test fixes a handful of strings.", "anchors": ["src/file_extension.rs"]}
{"id": "C42", "title": "Modifier strings parse back", "statement": "For every list of characters free of commas and white space the string character_eliminator(a, b, ...) parses to that eliminator; likewise character_converter(a: b, ...), consecutive_character_reducer(c), ligature_translator(f,t). For every other argument of the first two the outcome is determined by the pieces between commas: blank pieces and pieces without a pair are skipped, and if nothing is left the result is an error.", "quantifier": "every list / strings of the stated form", "why_tests_cant": "The set of texts and tables is infinite; a unit test fixes a handful of strings.", "anchors": ["src/modifier_kind.rs: FromStr", "src/modifier/*.rs: FromStr"]}
{"id": "C43", "title": "Exactly when parsing a modifier string panics", "statement": "ModifierKind::from_str panics exactly when a known `name(` prefix is not followed by a final `)`, or for an empty consecutive_character_reducer argument; a string that starts with no known modifier name yields the error \"parse error.\"; a ligature_translator argument without exactly one comma is an error. (One would expect that it never panics.)", "quantifier": "every string", "why_tests_cant": "It is an if-and-only-if over all strings.", "anchors": ["src/modifier_kind.rs: FromStr"]}
{"id": "C44", "title": "Failed imports leave the builder unchanged", "statement": "add_from_csv / add_from_yaml either return Err and leave the table untouched or add exactly the file's items; add_from_csv fails exactly if the file cannot be read or a record after the first is not valid UTF-8.", "quantifier": "every builder state, every file system", "why_tests_cant": "The set of texts and tables is infinite; a unit test fixes a handful of strings.", "anchors": ["src/table.rs: add_from_csv, add_from_yaml"]}
{"id": "C45", "title": "The CLI prints the normalised input", "statement": "The chanoma binary prints normalize(input) for the pipeline rc files, then preset if -p, then neologdn if -n. Without an argument it reads bytes from stdin and uses the first line without its line terminator; if that line is not valid UTF-8 or cannot be read it prints `error: ` and the message instead. With -d it prints the same, except that it panics when the pipeline is empty.", "quantifier": "every option combination, environment and input", "why_tests_cant": "The set of texts and tables is infinite; a unit test fixes a handful of strings.", "anchors": ["src/main.rs"]}
{"id": "C46", "title": "The Python binding equals the Rust API", "statement": "Python's Chanoma(table, neologdn, preset, rc, configfile).normalize(text) equals the Rust pipeline: config (configfile over rc), table, preset, neologdn, in this order; Python tables have the same item-set semantics; constructing a Python table succeeds exactly if its files load, and otherwise raises the error of the first that fails, or panics if that has the wrong shape.", "quantifier": "every argument combination, environment, text", "why_tests_cant": "The set of texts and tables is infinite; a unit test fixes a handful of strings.", "anchors": ["bindings/python3/src/lib.rs"]}
{"id": "C47", "title": "What the CJK compatibility table lists", "statement": "The CJK compatibility set maps every square U+3300..U+33FF except six to its Unicode compatibility expansion (with '/' and the micro sign in place of U+2215 and U+03BC), and it is functional there; of the six, U+33A4 is missing, U+33A3 has two conflicting targets, U+339F loses its exponent, and U+33CD, U+33D7, U+33D9 are written K., pH, ppm for KK, PH, PPM; it lists nothing else. (One would expect it to cover the block.)", "quantifier": "every character", "why_tests_cant": "A finite but large table, in a quantified claim over all characters.", "anchors": ["src/characters_set/cjk_compatibilities.rs"]}
{"id": "C48", "title": "A converter using the CJK table keeps only the first character of each expansion", "statement": "Normalising with a sorted table without empty cells and without squares of its own, extended by the CJK items, replaces every listed square by the first character of its expansion, and U+33A3 by 'm', for every text and hash order; no square is expanded by any table. (One would expect the full expansion.)", "quantifier": "every text", "why_tests_cant": "The set of texts and tables is infinite; a unit test fixes a handful of strings.", "anchors": ["src/characters_set.rs (TODO)", "src/modifier/character_converter.rs: from_tables"]}
{"id": "C49", "title": "Item order is code point order", "statement": "The (from, to) listing order, which Rust defines on UTF-8 bytes, equals lexicographic order of code points, and is total and antisymmetric.", "quantifier": "every pair of items", "why_tests_cant": "The set of texts and tables is infinite; a unit test fixes a handful of strings.", "anchors": ["src/corr/item.rs: derive(Ord)"]}
{"id": "C50", "title": "Exported preset CSV re-imports except the ideographic space", "statement": "Saving the output of the `output` binary as a CSV rc file and loading it yields a normaliser equal to the preset on every text except that U+3000 stays.", "quantifier": "every text", "why_tests_cant": "The set of texts and tables is infinite; a unit test fixes a handful of strings.", "anchors": ["src/bin/output.rs", "src/file.rs", "src/configuration.rs"]}
{"id": "C51", "title": "Each predefined set is one class of characters", "statement": "The sets DIGITS, ALPHABETS, KANAS and PUNCTUATIONS list exactly the full-width digits, the full-width Latin letters, the half-width kana and Japanese punctuation (without U+FF70) with the ideographic space, and the remaining full-width symbols with the four irregular ones; the classes are disjoint, and their union is what the preset changes; every listing is strictly sorted and independent of hash order.", "quantifier": "every item, character and hash order", "why_tests_cant": "It quantifies over all Unicode characters, including those that must not occur in a set, and over hash orders.", "anchors": ["src/characters_set/*.rs", "src/characters_set.rs"]}
{"id": "C52", "title": "Equality and order of positions agree, and identify the positions of a record", "statement": "Position's == is an equivalence and its cmp a total order, both looking at index only, and == holds exactly when cmp says equal; the texts and lengths are ignored. No two positions reported in one record are equal under ==, so sorting the positions of a record gives one list whatever the hash seed was.", "quantifier": "every position; every modifier, text and pair of hash orders", "why_tests_cant": "Laws of relations quantify over all triples; tests of hash dependent output see one order per run.", "anchors": ["src/position.rs: PartialEq, Ord, PartialOrd", "src/modifier/*.rs: modify_with_positions"]}
{"id": "C53", "title": "Error texts name what is wrong", "statement": "The text of an error determines the error: two errors of the crate, other than passed-on I/O errors, with equal texts (paths being UTF-8) are equal. The text of the OSError raised in Python for an unusable CHANOMARC contains its value, for a bad configuration file extension the extension or the path, and for an unknown YAML modifier its name. Paths that are valid UTF-8 are displayed unchanged; in others U+FFFD stands for each longest piece that is no character. In Python every error of loading raises an OSError, and a PanicException is raised exactly where loading panics or a table has an empty cell.", "quantifier": "every pair of errors; every environment, file system and path", "why_tests_cant": "Injectivity is a claim about all pairs of errors.", "anchors": ["src/error.rs", "bindings/python3/src/lib.rs (constructor)"]}
{"id": "C54", "title": "What is exported, character by character", "statement": "Exporting a correspondence to CSV writes exactly one line per distinct target, in increasing order, holding its sources in the order of the correspondence and then the target, cells quoted only if they contain a comma, a quote or a line break; exporting to YAML gives the mapping from targets to source lists. The output binary prints the preset's items in this way - YAML for the format `yaml`, CSV with one more line end for every other format - independently of hash seeds; the printed YAML, parsed back, loads to the preset.", "quantifier": "every correspondence, format string and hash order", "why_tests_cant": "Exact texts for all inputs, including the quoting of arbitrary cells.", "anchors": ["src/file.rs: to_csv_writer, to_serialized_corr", "src/bin/output.rs"]}
{"id": "C55", "title": "A builder made from a file", "statement": "TableBuilder::from_csv_path and from_yaml_path yield the items of the file in file order with the resolved path as origin, an Io error if the path cannot be resolved, and otherwise exactly the stated errors and panics. Compared with adding the file to a new builder the set of items is the same, and normalisers made from both agree if no two rows conflict; with conflicting rows they may differ (the last row wins against the greatest target).", "quantifier": "every path, file system and hash order", "why_tests_cant": "Agreement of two loading paths on every file and text.", "anchors": ["src/table.rs: from_csv_path, from_yaml_path, add_from_csv, add_from_yaml"]}
{"id": "C56", "title": "The preset without some of its items", "statement": "A table made of the preset minus a correspondence gives a normaliser that leaves unchanged exactly the characters whose preset item was removed and folds all others as the preset does; removing one of the predefined sets DIGITS, ALPHABETS, KANAS or PUNCTUATIONS leaves exactly the full-width digits, the full-width letters, the half-width kana and Japanese punctuation, or the full-width symbols unchanged.", "quantifier": "every correspondence, text, hash order and log level", "why_tests_cant": "All subsets of the preset and all texts.", "anchors": ["src/table.rs: preset, remove_corr", "src/characters_set/*.rs", "src/modifier/character_converter.rs"]}
{"id": "C57", "title": "Between conflicting items the greatest wins, not the last added", "statement": "After any sequence of add_corr, remove_corr and preset calls with at least one addition, the normaliser of the table replaces each character by the first character of the target of the greatest item (ordered by source, then target, by code points) whose source starts with that character. The order in which items were added plays no part: of two rules for one character the one with the greater target wins, whichever was added last.", "quantifier": "every builder, sequence of calls, text and hash order", "why_tests_cant": "All histories and all orders of additions; a test fixes one.", "anchors": ["src/table.rs: add_corr", "src/corr.rs: Add, Sub", "src/modifier/character_converter.rs"]}
{"id": "C58", "title": "Preset and neologdn commute and differ only on the full-width equals sign", "statement": "Using the preset and then neologdn, or neologdn and then the preset, gives the result of neologdn alone with every '＝' replaced by '='; it is equal to the result of neologdn alone exactly for the texts without '＝'.", "quantifier": "every text, hash order and log level", "why_tests_cant": "Equality of two pipelines on all texts.", "anchors": ["src/chanoma.rs: use_preset, use_neologdn", "src/modifier/neologdn.rs", "src/characters_set/*.rs"]}
{"id": "C59", "title": "Normalising never makes a text longer", "statement": "A pipeline built by use_preset, use_neologdn and add_table calls never returns more characters than it was given; without neologdn it returns exactly as many; without tables it never returns more UTF-8 bytes. The eliminator, reducer, dotted-space and trim modifiers only delete characters: their result is a subsequence of the input.", "quantifier": "every sequence of calls, text, hash order and log level; every eliminator and reducer", "why_tests_cant": "A bound for all texts, including every multi-byte character.", "anchors": ["src/chanoma.rs", "src/modifier/*.rs"]}
{"id": "C60", "title": "Texts can be normalised line by line", "statement": "Let sep be a character that no modifier of a pipeline touches: converters do not map it, eliminators do not delete it, reducers reduce another character, no ligature key contains it, with dotted-space it is neither a space nor ASCII alphanumeric, with neologdn it is none of the characters that neologdn folds, deletes, joins or composes; and there is no trim. Then normalising a text of pieces joined by sep gives the normalised pieces joined by sep. Line ends are such a character for neologdn. With trim this is false.", "quantifier": "every pipeline, separator, list of pieces, hash order and log level", "why_tests_cant": "All ways to cut all texts, for all pipelines.", "anchors": ["src/chanoma.rs: normalize", "src/modifier/*.rs"]}
{"id": "C61", "title": "Exactly which texts stay as they are, and which can come out", "statement": "A text is the neologdn result of some text if and only if: no character of it is folded or deleted by neologdn, every space stands between two ASCII alphanumerics, and no kana is followed by a sound mark that composes with it. Neologdn leaves a text as it is if and only if it is such a text and has no two adjacent prolonged sound marks. For the preset both are exactly the texts without a character that is folded.", "quantifier": "every text, hash order and log level", "why_tests_cant": "An equivalence over all texts; the direction from right to left needs a preimage of every such text.", "anchors": ["src/modifier/neologdn.rs: modify", "src/chanoma.rs: preset, neologdn, normalize"]}
{"id": "C62", "title": "Tables in sequence chain, items of one table do not", "statement": "Two tables added one after the other normalise like one table in which the targets of the first are changed by the second. Within one table the items a to b and b to c turn a into b in any order; as two tables they turn a into c. The order of two tables does not matter if and only if their substitutions commute on every character, in particular if no source of one is a source or target of the other. A table is idempotent if and only if no target is changed again.", "quantifier": "every pair of tables without empty cells, every text, hash order and log level", "why_tests_cant": "All pairs of tables and all texts.", "anchors": ["src/chanoma.rs: add_table, normalize", "src/modifier/character_converter.rs: from_tables, modify"]}
{"id": "C63", "title": "Substitutions can be undone from the reported positions", "statement": "In a pipeline of tables (and the preset), going from the last record to the first and writing each position's from at its index turns the result into the input again, in whatever order the positions are listed. So the result and the positions determine the input.", "quantifier": "every pipeline of converters, every text, every hash order", "why_tests_cant": "All pipelines, texts and hash orders.", "anchors": ["src/chanoma.rs: normalize_with_positions", "src/modifier/character_converter.rs: modify_with_positions"]}
{"id": "C64", "title": "The notations of a modifier agree", "statement": "The string form (name(argument)), the YAML entry and the macro for the same modifier with the same parameters build the same modifier. The own parsers of the modifiers without parameters accept exactly the empty string, and then give the modifier that their name gives.", "quantifier": "every modifier with every list of parameters, every string, YAML entry and macro call that denotes it, every hash order", "why_tests_cant": "Unboundedly many parameter lists, and spacings of their texts.", "anchors": ["src/modifier_kind.rs: from_str, from_yaml_key_value", "src/modifier/character_eliminator.rs: from_char, character_eliminator!", "src/modifier/character_converter.rs: character_converter!", "src/modifier/consecutive_character_reducer.rs: consecutive_character_reducer!", "src/modifier/ligature_translator.rs: ligature_translator!", "src/modifier/trim.rs: from_str", "src/modifier/dotted_space_eliminator.rs: from_str", "src/modifier/neologdn.rs: from_str"]}
{"id": "C65", "title": "One-character rules mean the same in every format", "statement": "The same list of pairs of characters written as rows of a CSV file, under items of a YAML file, under character_converter of a YAML file, or as a table in the program loads without error and gives the same normalised text: each character becomes its last partner.", "quantifier": "every list of pairs of characters, every file with this content, every text, hash order and log level", "why_tests_cant": "All lists of pairs, all ways to write them as CSV, and all texts.", "anchors": ["src/chanoma.rs: from_config_file, from_table", "src/configuration.rs: load, load_items_to_character_converter, load_modifiers", "src/table.rs: from_csv_path, from_yaml_path", "src/modifier/character_converter.rs: from_yaml_value, from_tables"]}
{"id": "C66", "title": "Where the hash order can show", "statement": "Whatever the iteration order of hash maps and sets: the predefined normalisers, the tables of a builder, the modifiers read from strings, everything loaded from configuration files, the predefined sets and the exported table are the same. A normaliser obtained through the public interface gives the same result for all hash orders if each of its ligature translators has at most one rule or rules that do not interfere; its records have the same modifiers and texts, and the same positions up to their order. The same holds for what the command line program prints. Whether the hash order can show in the results of a normaliser is decided by texts up to a length bounded by its rules.", "quantifier": "every pair of hash orders, every environment, configuration, text and log level", "why_tests_cant": "A test run sees one hash seed; the claim is about all iteration orders.", "anchors": ["src/corr.rs: add", "src/chanoma.rs: preset, neologdn, load_rc, from_config_file, normalize, normalize_with_positions", "src/modifier/ligature_translator.rs: modify", "src/modifier/character_converter.rs: modify, modify_with_positions", "src/main.rs: main", "bindings/python3/src/lib.rs: new"]}
{"id": "C67", "title": "ASCII texts", "statement": "The preset leaves a text of ASCII characters as it is. Neologdn deletes from it only spaces, by the dotted-space rule, and then tildes: the result is ASCII, keeps all other characters in order, and has no new spaces.", "quantifier": "every ASCII text, hash order and log level", "why_tests_cant": "All ASCII texts of any length.", "anchors": ["src/chanoma.rs: preset, neologdn, normalize", "src/modifier/neologdn.rs: modify", "src/modifier/dotted_space_eliminator.rs: modify"]}
{"id": "C68", "title": "Any sequence of presets and neologdns", "statement": "What a sequence of use_preset and use_neologdn calls does to texts depends only on whether the preset is among the calls and on whether neologdn is among them never, once or more often; on an empty normaliser these six cases are all different.", "quantifier": "every normaliser to start from, every two sequences of calls, every text, hash order and log level", "why_tests_cant": "All sequences of calls of any length and all texts.", "anchors": ["src/chanoma.rs: use_preset, use_neologdn, normalize", "src/modifier/neologdn.rs: modify"]}
{"id": "C69", "title": "What the shipped example table does", "statement": "The file examples/file/table.csv loads as a configuration file. Its normaliser turns tildes into '~', hyphens into '-', dashes and the full-width hyphen into 'ー', CJK squares into the first character of their expansion, leaves the yen sign and the ideographic space, and folds every other character as the preset does; it is idempotent, and agrees with the preset extended by the CJK set exactly on the texts without the characters of a given list. The same pairs in the form of examples/file/table.yaml make loading panic.", "quantifier": "every place the file is stored at, every text, hash order and log level", "why_tests_cant": "All texts over all characters; no test loads the example files.", "anchors": ["examples/file/table.csv", "examples/file/table.yaml", "src/chanoma.rs: from_config_file, normalize", "src/configuration.rs: load"]}
{"id": "C70", "title": "Half-width sound marks are never composed", "statement": "No sequence of presets and neologdns touches a half-width sound mark (U+FF9E, U+FF9F): the text before it and the text after it are normalised separately. So a half-width katakana letter with its half-width mark becomes the full-width letter with the half-width mark, whereas with the full-width mark it becomes the voiced letter.", "quantifier": "every sequence of calls, every text before and after, every half-width letter that can be voiced, every hash order", "why_tests_cant": "All contexts of a mark; no test has a half-width mark.", "anchors": ["src/chanoma.rs: use_preset, use_neologdn, normalize", "src/modifier/neologdn.rs: modify, new", "src/characters_set/kanas.rs"]}
{"id": "C71", "title": "Which modifiers may be exchanged or repeated", "statement": "For any two of the modifiers character_converter, character_eliminator, consecutive_character_reducer, dotted_space_eliminator and trim, running them in either order gives the same result for all texts exactly under a stated condition on their parameters; e.g. a reducer and trim always, an eliminator and a reducer only if the eliminator deletes nothing or deletes the reduced character, a converter and a reducer only if exactly the reduced character is converted to it. Exchanging two such neighbouring entries in a YAML file then changes nothing, whatever stands around them. Giving one of them twice in a row is the same as once, except for a converter whose substitution is not idempotent. With neologdn, trim may always be exchanged and dotted_space_eliminator never; a reducer exactly if neologdn turns the reduced character into a space or a tilde, or into a prolonged sound mark that it is not itself; an eliminator exactly if it deletes nothing or respects the foldings and deletes the space, the prolonged sound mark, everything that takes part in compositions, and all ASCII alphanumerics or all spaces; a converter exactly if its substitution respects the foldings, the deleted tildes, spaces, prolonged sound marks, ASCII alphanumerics and compositions.", "quantifier": "every pair of these modifiers (and each of them with neologdn) with all parameters, every text, every surrounding pipeline, every hash order, both log levels", "why_tests_cant": "The condition is exact for all texts and all parameters; a test can only show one text on which an order matters.", "anchors": ["src/modifier_kind.rs: modify, modify_with_positions", "src/chanoma.rs: normalize", "src/modifier/character_converter.rs: modify", "src/modifier/character_eliminator.rs: modify", "src/modifier/consecutive_character_reducer.rs: modify", "src/modifier/dotted_space_eliminator.rs: modify", "src/modifier/trim.rs: modify", "src/file.rs: modifiers_from_yaml_path", "src/modifier/neologdn.rs: modify"]}
{"id": "C72", "title": "Which modifiers can be undone from what they report", "statement": "In a pipeline of character converters, consecutive-character reducers and trims the original text is obtained from the normalised text and the reported positions alone, by undoing the modifiers from the last to the first: substituted characters are put back at their indices, trimmed spaces at the beginning (index 0) or the end, and the runs of a reducer in the order in which they are reported (its indices are wrong but not needed). Of the modifiers other than the ligature translator, exactly the dotted-space eliminator, neologdn and an eliminator with at least one character lose information: two different texts give the same record. A ligature translator with one rule loses information if the key is not part of the value; for a key of one character exactly then, while with longer keys it may lose information even if the key is part of the value.", "quantifier": "every pipeline of these modifiers with all parameters, every text, every hash order", "why_tests_cant": "The statement is about recovering every possible input; a test can compare only some recovered inputs and cannot show that two inputs never collide.", "anchors": ["src/chanoma.rs: normalize_with_positions", "src/modifier/character_converter.rs: modify_with_positions", "src/modifier/consecutive_character_reducer.rs: modify_with_positions", "src/modifier/trim.rs: modify_with_positions", "src/modifier/character_eliminator.rs: modify_with_positions", "src/modifier/dotted_space_eliminator.rs: modify_with_positions", "src/modifier/ligature_translator.rs: modify_with_positions", "src/modifier/neologdn.rs: modify_with_positions"]}
{"id": "C73", "title": "At which places a text can be cut", "statement": "For every modifier but the ligature translator, modifying two pieces separately and joining the results gives the modified joined text exactly under the following condition. Converters and eliminators: always. Reducer of c: not both pieces have c at the cut. Dotted-space eliminator: the cut does not lie at spaces that stand between two ASCII alphanumerics. Trim: one piece consists of spaces, or there is no space at the cut. neologdn: neither two prolonged sound marks meet (after its character conversions), nor spaces between ASCII alphanumerics are cut, nor the last character of the one result and the first of the other compose to a voiced kana. A ligature translator with one rule allows every cut that is not inside an occurrence of the key. A pipeline of converters and eliminators maps or deletes each character by itself.", "quantifier": "all modifiers with all parameters, all pairs of texts, every hash order", "why_tests_cant": "It is an equivalence over all pairs of texts: a streaming caller relies on every cut that the condition allows, and on none that it forbids.", "anchors": ["src/modifier/character_converter.rs: modify", "src/modifier/character_eliminator.rs: modify", "src/modifier/consecutive_character_reducer.rs: modify", "src/modifier/dotted_space_eliminator.rs: modify", "src/modifier/trim.rs: modify", "src/modifier/ligature_translator.rs: modify", "src/modifier/neologdn.rs: modify", "src/chanoma.rs: normalize"]}
{"id": "C74", "title": "What is contained in a text stays contained in the normalised text", "statement": "In a pipeline without neologdn and ligature translators, normalising a beginning, an end or any part of a text gives a beginning, an end or a part of the normalised text, so that a search for a contained text still succeeds when both are normalised. For neologdn the result of a joined text is determined by the two results and by what meets at the joint: a kana and a sound mark become one character, of two prolonged sound marks one stays, spaces between ASCII alphanumerics become one space, and otherwise the results are just put together. The beginning stays a beginning, and equivalently the end an end, iff no kana and sound mark compose at the joint. In texts without the sound marks U+309B and U+309C every part stays contained. A ligature rule for a key of two or more characters whose first character is not in the value loses parts.", "quantifier": "all such pipelines with all parameters, all texts and parts, every hash order", "why_tests_cant": "Containment must hold for every text and every part of it; a full-text index relies on it for queries that no test contains.", "anchors": ["src/chanoma.rs: normalize", "src/modifier/character_converter.rs: modify", "src/modifier/character_eliminator.rs: modify", "src/modifier/consecutive_character_reducer.rs: modify", "src/modifier/dotted_space_eliminator.rs: modify", "src/modifier/trim.rs: modify", "src/modifier/ligature_translator.rs: modify", "src/modifier/neologdn.rs: modify"]}
{"id": "C75", "title": "The numbers in reported positions", "statement": "Every position reported by any modifier has index, length and utf8_index at most the byte length of the text it was computed from and utf8_length at most its number of characters, so none of these can overflow. Its `from` is a non-empty piece of that text, length and utf8_length are the byte and character lengths of `from`, and `to` has at most one character. There are at most as many positions as characters. Except for the reducer index + length and utf8_index + utf8_length stay within the byte length of the text; for a text that consists of the reduced character alone, index + length is past its end by one character.", "quantifier": "every modifier with all parameters, every text, every hash order", "why_tests_cant": "A bound on all positions of all texts; callers slice texts with these numbers.", "anchors": ["src/position.rs: Position", "src/modifier/character_converter.rs: modify_with_positions", "src/modifier/consecutive_character_reducer.rs: modify_with_positions", "src/modifier/trim.rs: modify_with_positions"]}
{"id": "C76", "title": "Which tables do the same, and which can be reversed", "statement": "Two tables give normalisers that agree on all texts if and only if they replace every character by the same one, where no item counts as an item to the character itself. Two texts come out of a table's normaliser alike if and only if they are equally long and have place by place characters that are replaced by the same one. Different texts always come out differently if and only if every text can come out, and this is so if and only if every character that is replaced is itself the replacement of some character.", "quantifier": "every table without empty cells, all texts, every hash order, both log levels", "why_tests_cant": "These are equivalences about all texts at once; a test can show a difference but never an agreement.", "anchors": ["src/chanoma.rs: Chanoma::from_table, normalize", "src/modifier/character_converter.rs: CharacterConverter::from_tables, modify"]}
{"id": "C77", "title": "What is not mentioned stays", "statement": "The characters that no modifier of a pipeline mentions come through it as they are, in their order, and none of them is added; for example the ideographs of a text come through the preset and neologdn. What neologdn changes of a text, its widths apart, are only its spaces, tildes, 'ー' and sound marks.", "quantifier": "every pipeline that can be built through the public interface, every set of characters not mentioned, every text, every iteration order", "why_tests_cant": "It speaks about all characters and all texts; a test checks the characters somebody thought of.", "anchors": ["src/chanoma.rs: normalize", "src/modifier/neologdn.rs: modify", "src/modifier/*.rs: modify"]}
{"id": "C78", "title": "What can be written as a table", "statement": "A function on texts is what the normaliser of some table does if and only if it works character by character: it leaves the empty text, makes of two texts joined the two results joined, and of one character one character. Every normaliser made of presets and tables, however many, can be written to one CSV file, with one item for each character it changes, such that loading the file gives a normaliser that does the same. No table does what neologdn does.", "quantifier": "every function on texts; every sequence of use_preset and add_table calls; every world in which the file is there; every text", "why_tests_cant": "Existence of a table for every sequence of calls, and non-existence for neologdn, are statements about all tables.", "anchors": ["src/chanoma.rs: from_table, add_table, use_preset, from_config_file", "src/corr.rs: to_csv_writer"]}
{"id": "C79", "title": "Short texts tell whether two converters do the same", "statement": "Two converters, however they were made, do the same to every text if they do the same to every text of length at most 2·m·n, where m and n are the products over their modifiers of: 1 for a character converter or eliminator, 2 for a reducer, 4 for trim and for the dotted space eliminator, 344 for neologdn, the product of the lengths of its keys for a ligature translator. It is enough to look at texts made of the characters that the converters mention and of two others, an ASCII alphanumeric and one that is not. In the same way short texts tell whether normalising twice is normalising once, and whether one converter undoes another. No fixed length does for all converters.", "quantifier": "every two converters reachable through the API, every hash order, with and without debug logging, every text", "why_tests_cant": "A test suite checks some texts; how many would be enough cannot be known without a proof, and the sufficient number is far beyond what can be enumerated.", "anchors": ["src/chanoma.rs: normalize", "src/modifier.rs: ModifierKind::modify", "src/modifier/ligature_translator.rs: modify", "src/modifier/trim.rs: modify", "src/modifier/neologdn.rs: modify"]}
{"id": "C80", "title": "Characters that are not mentioned are all treated alike", "statement": "Let a renaming of characters keep every character that some modifier of a converter mentions, send no other character to one of them, and, if there is a dotted space eliminator or neologdn among the modifiers, keep ASCII alphanumerics apart from other characters. Then normalising the renamed text gives the renamed result. If the renaming also keeps the length of every character in UTF-8, normalize_with_positions reports for the renamed text the same positions from the same modifiers, up to order, with the renamed intermediate texts.", "quantifier": "every converter reachable through the API, every renaming of that kind, every hash order, with and without debug logging, every text", "why_tests_cant": "It compares the results for a text and all its renamings; a special case for some character would only show on texts with that character.", "anchors": ["src/chanoma.rs: normalize", "src/modifier.rs: Modifier", "src/modifier/neologdn.rs: modify"]}
{"id": "C81", "title": "How much longer a text can get", "statement": "A text of l characters comes out with at most (l + 1)·q − 1 characters, where q is the product over all ligature rules of the converter of the longer of key and value divided by the key (for an empty key: the length of the value plus one); the other modifiers contribute nothing. For a single rule the factor is attained on repetitions of the key. The length can depend on the hash order: for every n there is a map of n + 1 rules with different keys with which the text `a` becomes `baba` in one order and at least 2^(n+1) characters long in another one.", "quantifier": "every converter reachable through the API, every hash order, with and without debug logging, every text, every n", "why_tests_cant": "A bound over all texts and all rule maps, and two hash orders that a single process never shows together.", "anchors": ["src/chanoma.rs: normalize", "src/modifier/ligature_translator.rs: modify"]}
{"id": "C82", "title": "Which command lines are accepted, and what they mean", "statement": "The chanoma binary runs exactly if its arguments are long flags (--debug, --preset, --neologdn), groups of the letters d, p, n after one hyphen, and texts (not starting with a hyphen, or a single hyphen), in any order, optionally followed by `--` and more texts, with no flag given twice in whatever notation and at most one text, in valid UTF-8. The options are the flags given and the text. Without `--` the order of the arguments does not matter and a text of several characters that starts with a hyphen can never be what is normalised; after `--` every text can. Every other command line ends the program without normalising anything.", "quantifier": "every list of arguments (byte strings), every environment and standard input", "why_tests_cant": "There are infinitely many command lines; the binary has no tests.", "anchors": ["src/main.rs: Opts", "src/main.rs: main"]}
{"id": "C83", "title": "What a configuration depends on, and what is silently ignored", "statement": "Of a YAML configuration only the entries `items` and `modifiers` matter: documents agreeing on these two have the same outcome, whatever else they contain and wherever they are. A document with neither, for example one with misspelt keys or one that is no mapping, is not rejected: it loads to a pipeline that changes no text and reports no position. Of a CSV configuration only the items of the records after the first matter, not the header, empty lines, line ends, quoting, or how items are grouped into rows; a CSV file has the same outcome as a YAML file with the same items and no modifiers. load_rc depends on nothing but CHANOMARC, the home directory, the current directory and the files they determine.", "quantifier": "every two documents, files and environments", "why_tests_cant": "There are infinitely many documents and file systems that agree on what matters; the tests load a few fixed files.", "anchors": ["src/file.rs: table_from_yaml_path", "src/file.rs: modifiers_from_yaml_path", "src/file.rs: table_from_csv_path", "src/configuration.rs: load", "src/configuration.rs: load_file_with_ext"]}
{"id": "C84", "title": "Which command lines of the output program are accepted, and what they print", "statement": "The output binary runs exactly if it gets no argument or one option --format V, --format=V, -f V, -f=V or -fV, perhaps followed by `--`; V must be valid UTF-8, and in an argument of its own must be a single hyphen or not start with one. Without arguments the format is csv. The format `yaml`, written exactly so, prints the preset's items as YAML; every other format, known or not (yml, YAML, json), prints them as CSV without complaint. Every other command line - the option given twice, other arguments, invalid UTF-8 - ends the program without printing a table.", "quantifier": "every list of arguments (byte strings), every hash order", "why_tests_cant": "There are infinitely many command lines; the binary has no tests.", "anchors": ["src/bin/output.rs: Opts", "src/bin/output.rs: Format::from_str", "src/bin/output.rs: main"]}
{"id": "C85", "title": "When two modifiers compare equal", "statement": "`==` on modifiers is an equivalence relation, whichever way they were obtained (string, YAML entry, macro, tables, map, a normaliser). Two modifiers are equal exactly if they are of the same kind and have the same entries: the order in which converter pairs, characters or rules were written, repeated characters and overridden pairs or rules do not matter, and neither does the hash seed; neologdns, and the converters of the preset, are always equal. For converters made of tables this means that the tables give every character the same partner. Equal modifiers can make the same texts; for all kinds but the ligature translator, modifiers of the same kind are equal if and only if they make the same texts and report the same changes. Making the same texts alone is not enough.", "quantifier": "all obtainable modifiers, all texts, all hash orders", "why_tests_cant": "The tests compare a handful of parsed modifiers with a macro's; that order, repetition and hash seed never matter, and that equality means equal behaviour, are statements about all pairs of modifiers.", "anchors": ["src/modifier_kind.rs: ModifierKind (derive PartialEq)", "src/modifier/character_converter.rs: CharacterConverter (derive PartialEq)", "src/modifier/character_eliminator.rs: CharacterEliminator (derive PartialEq)", "src/modifier/ligature_translator.rs: LigatureTranslator (derive PartialEq)", "src/modifier/neologdn.rs: Neologdn (derive PartialEq)"]}
{"id": "C86", "title": "What is loaded if a configuration changes meanwhile", "statement": "from_config_file reads a YAML file twice, first for the items and then for the modifiers. For any two contents at these moments the result is exactly that of a document with the items of the first and the modifiers of the second; so a file replaced in between can load as a configuration that is neither the old nor the new one. (One would expect one of the two.) If the first reading fails or its table is bad, that decides whatever the second one would give; otherwise a second reading that fails gives its own error. A CSV file is read once. load_rc reads CHANOMARC first, then looks for the files, and reads them only afterwards: with any environment at each of these moments, its result is that of loading, one after the other, the files that were there when they were looked for; a file that has vanished by the time it is read is an error, although a missing file is passed over. TableBuilder::from_csv_path and from_yaml_path resolve the path first and read afterwards: they take the file that the path meant at the first moment, with its contents at the second. If nothing changes, all of this is what C33 to C40 and C55 say.", "quantifier": "every sequence of environments and file systems, one for each access", "why_tests_cant": "The tests use files that do not change; races need control over the moment of each access, and the claim is about all possible histories.", "anchors": ["src/configuration.rs: load, file_paths, load_file_with_ext, valid_file_path, table_from_yaml_path, modifiers_from_yaml_path", "src/chanoma.rs: load_rc, from_config_file", "src/table.rs: from_csv_path, from_yaml_path"]}
{"id": "C87", "title": "What a run logs, prints and returns", "statement": "Without -d the chanoma program logs nothing. With -d it logs first how the rc files were searched: the value of CHANOMARC if it is set to valid UTF-8, and whether something of that name exists; then the files to be loaded, unless the file named by CHANOMARC cannot be used. Then, if they load, it logs one record per modifier in pipeline order: the record names the modifier and shows the text made by the pipeline up to it, and they are the records normalize_with_positions returns; the text of the last one is what is printed. Logging does not change what is done otherwise. The exit status is 0 exactly if something is printed and 101 otherwise: 101 exactly if the rc files do not load or -d is given and a text is normalised by no modifier. Standard input that cannot be read or is not valid UTF-8 gives status 0, with the error on standard output.", "quantifier": "every option combination, environment, file system, standard input and hash order", "why_tests_cant": "The log depends on the environment, the files, the pipeline and the text together, and status and output on all of them; tests see single runs, and the repository has none of the binary.", "anchors": ["src/main.rs:17-52", "src/configuration.rs:21-65", "src/chanoma.rs:122-153"]}
{"id": "C88", "title": "What is settled while a text is still being written", "statement": "In a pipeline without ligature translators and neologdn, writing more after a text only adds to its result: the result of a beginning is a beginning of the result. In every pipeline in which no trim comes after a ligature translator or neologdn there is a number d, the same for all texts and hash orders, such that all but the last d characters of a result stay whatever is written after the text. For neologdn d is 1, and the last character changes exactly if it is a kana that becomes voiced by what follows. For a ligature translator with one rule d is the length of the key minus 1, and no smaller number does unless the value begins like the key. With a trim after a ligature translator there need not be such a number.", "quantifier": "every pipeline built through the public interface, every text and continuation, every hash order and log level", "why_tests_cant": "The claim bounds how far later characters reach back, for all continuations and all pipelines; a test sees finitely many continuations, and the reach is unbounded for some pipelines.", "anchors": ["src/chanoma.rs: Chanoma::normalize", "src/modifier/ligature_translator.rs: modify", "src/modifier/trim.rs: modify", "src/modifier/dotted_space_eliminator.rs: modify", "src/modifier/consecutive_character_reducer.rs: modify", "src/modifier/neologdn.rs: modify"]}
{"id": "C89", "title": "Texts read backwards", "statement": "A pipeline without ligature translators and neologdn treats left and right alike: a text read backwards becomes the result read backwards, although reducer, dotted-space rule and trim are written as scans from left to right. A ligature rule, with key and value read backwards, does the same to all texts read backwards exactly if, wherever two occurrences of its key overlap, replacing the one or the other gives the same text; in particular if the key does not overlap itself. The same holds for several rules, up to the hash order. It is false for aa -> b and for neologdn.", "quantifier": "every pipeline built through the public interface, every text, every rule, every hash order and log level", "why_tests_cant": "The exact criterion speaks about all texts and all rules; overlapping keys are rare in hand-written tests.", "anchors": ["src/chanoma.rs: Chanoma::normalize", "src/modifier/ligature_translator.rs: modify", "src/modifier/dotted_space_eliminator.rs: modify", "src/modifier/consecutive_character_reducer.rs: modify", "src/modifier/trim.rs: modify"]}
{"id": "C90", "title": "What is settled if something is put in front of a text", "statement": "In a pipeline without ligature translators and neologdn, putting something in front of a text only adds to its result: the result of an end is an end of the result. If no trim comes after a ligature translator or neologdn, and for every ligature rule it does not matter which one of two overlapping occurrences of the key is replaced, there is a number d, the same for all texts and hash orders, such that all but the first d characters of a result stay whatever is put in front of the text. For neologdn d is 1, and the first character goes exactly if it is a sound mark that is joined to a kana before it. For a ligature translator with one such rule d is the length of the key minus 1. Without the condition there need not be such a number: with aa -> b one a in front of a long text changes the end of the result.", "quantifier": "every pipeline built through the public interface, every text and every beginning, every hash order and log level", "why_tests_cant": "The claim bounds how far earlier characters reach, for all texts put in front; for some rules the reach is unbounded, which no finite test shows.", "anchors": ["src/chanoma.rs: Chanoma::normalize", "src/modifier/ligature_translator.rs: modify", "src/modifier/neologdn.rs: modify", "src/modifier/dotted_space_eliminator.rs: modify", "src/modifier/trim.rs: modify"]}
{"id": "C91", "title": "The positions of two texts put together", "statement": "What a character converter reports of two texts put together is, up to order, what it reports of the first and what it reports of the second moved on by the length of the first: index by its characters, utf8_index by its bytes. The same holds of each record of a run of several converters, where the bytes are those of the first text as that converter got it. If neither text ends in the repeated character, the runs a reducer reports are those of the first, followed by those of the second with index moved by the bytes of the first result and utf8_index by the characters of the first text; if the second text ends in it, the last run has its utf8_index moved by the bytes of the first text instead. If neither text consists of spaces only, trim reports the beginning of the first and the end of the second, moved by bytes (index) and characters (utf8_index) of the first.", "quantifier": "every converter, every chain of converters, every reducer, every two texts, every three hash orders", "why_tests_cant": "A test fixes two texts. The claim says how every report moves, for all texts and for unrelated hash orders of the three runs, and fixes the unit of each offset, which ASCII examples cannot tell apart.", "anchors": ["src/modifier/character_converter.rs: modify_with_positions", "src/modifier/consecutive_character_reducer.rs: modify_with_positions", "src/modifier/trim.rs: modify_with_positions", "src/chanoma.rs: Chanoma::normalize_with_positions"]}
{"id": "C92", "title": "When one text may be put in the place of another anywhere", "statement": "Two texts are interchangeable for a modifier if it makes no difference, whatever stands before and after, which of the two stands there. For a converter, an eliminator and a reducer this is so exactly if the two texts alone have the same result. For trim and the dotted-space rule that is not enough (a space after a letter), but one try decides: between x and x for trim, between 1 and 1 for the dotted-space rule. For neologdn four tries decide: between 1 and 1, between '1 ' and ' 1', behind a prolonged sound mark and in front of one; and each of the four is needed. For a ligature translator with one rule the surroundings shorter than the key decide. In a pipeline of converters and eliminators the results of the texts alone decide; in a pipeline of a reducer and an eliminator they do not.", "quantifier": "every modifier that can be configured, every two texts, everything that may stand before and after, every hash order", "why_tests_cant": "A test tries finitely many surroundings. The claim is that these few suffice for all of them, and that for neologdn none can be left out.", "anchors": ["src/modifier/neologdn.rs: modify", "src/modifier/dotted_space_eliminator.rs: modify", "src/modifier/trim.rs: modify", "src/modifier/consecutive_character_reducer.rs: modify", "src/modifier/ligature_translator.rs: modify", "src/chanoma.rs: Chanoma::normalize"]}
{"id": "C93", "title": "A change in a text has only local effect", "statement": "If two texts differ at one place only, in at most n characters, so do their results, in at most n characters for a converter and an eliminator, n+1 for a reducer, n+2 for the dotted-space rule and neologdn; these numbers cannot be made smaller. In a pipeline of k modifiers without trim and ligature translators the results differ in at most n+2k characters at one place. With ligature translators there is still a bound that depends only on the pipeline and n, for all texts and hash orders, if for every rule it does not matter which one of two overlapping occurrences of its key is replaced. With trim there is none (one letter after many spaces), nor with aa -> b (one letter in front of a run of a changes both ends of the result).", "quantifier": "every pipeline built through the public interface, every two texts, every n, every hash order and log level", "why_tests_cant": "The bound is the same for texts of every length, and the proof that trim and overlapping keys have none needs texts longer than any test.", "anchors": ["src/chanoma.rs: Chanoma::normalize", "src/modifier/neologdn.rs: modify", "src/modifier/dotted_space_eliminator.rs: modify", "src/modifier/consecutive_character_reducer.rs: modify", "src/modifier/ligature_translator.rs: modify", "src/modifier/trim.rs: modify"]}
{"id": "C94", "title": "Converters and eliminators, however many, fit in one file", "statement": "A converter made of any number of character converters and eliminators, in any order, can be put in one YAML file with one character_eliminator and items: the eliminator has exactly the characters of which nothing remains, the items exactly those of which another character remains, each once. It can also be put in a file with one character_converter followed by a character_eliminator of at most one character. What such files can do is exactly what works character by character and leaves at most one character of each. Two such converters do the same to all texts if they do the same to all texts of one character.", "quantifier": "every list of character converters and eliminators, every text, every world in which the file is there, every hash order and log level", "why_tests_cant": "The claim is that a file exists for every pipeline and agrees with it on all texts; that one character is enough for the eliminator rests on counting all characters.", "anchors": ["src/chanoma.rs: Chanoma::normalize, from_config_file", "src/configuration.rs: load_file_with_ext", "src/modifier/character_converter.rs: modify", "src/modifier/character_eliminator.rs: modify"]}
{"id": "C95", "title": "What becomes of a text that is normalised again and again", "statement": "Without ligature translators a text that is normalised again and again comes back to a text it has been before and goes round from then on, whatever the hash orders. If the converters (and the folding of neologdn) together take no character round in a circle, every text comes to rest; for pipelines of character converters alone this condition is also necessary. If all modifiers are eliminators, reducers, dotted-space rules and trims, three passes are enough for every pipeline and text, and two are not. With neologdn followed by an eliminator no fixed number of passes is enough; with a ligature translator a text can grow for ever.", "quantifier": "every pipeline built through the public interface without ligature translators, every text, every number of passes, every hash order in each pass", "why_tests_cant": "It is about arbitrarily many passes over texts of arbitrary length; that three passes are enough holds for infinitely many pipelines.", "anchors": ["src/chanoma.rs: Chanoma::normalize", "src/modifier/character_converter.rs: modify", "src/modifier/neologdn.rs: modify", "src/modifier/consecutive_character_reducer.rs: modify", "src/modifier/dotted_space_eliminator.rs: modify", "src/modifier/trim.rs: modify", "src/modifier/character_eliminator.rs: modify"]}
{"id": "C96", "title": "How many texts come out the same", "statement": "For a pipeline of character converters the number of texts that normalise to a given text is the product, over its characters, of the number of characters that become this one. For the preset a text without characters it replaces comes from exactly 2^k texts, where k counts its printable ASCII characters, yen signs, and katakana and punctuation marks with a half-width form other than the long-vowel mark; any other text comes from none. Trim, the dotted-space rule, neologdn and every eliminator that deletes anything make each of their results from arbitrarily long texts; a reducer does exactly if the reduced character is in the result, and makes every other result from itself only.", "quantifier": "every pipeline of character converters, every result text, every described modifier, every length, every hash order", "why_tests_cant": "The texts that come out the same must be found among all texts; the counts are exact and for the other modifiers the sources are unbounded.", "anchors": ["src/chanoma.rs: Chanoma::normalize, preset", "src/modifier/character_converter.rs: modify", "src/modifier/character_eliminator.rs: modify", "src/modifier/consecutive_character_reducer.rs: modify", "src/modifier/dotted_space_eliminator.rs: modify", "src/modifier/trim.rs: modify", "src/modifier/neologdn.rs: modify"]}
{"id": "C97", "title": "Which calls on a table builder come to the same", "statement": "After any calls of add_corr, remove_corr and preset a table has exactly the items the last call about which adds them, and of the items there at the beginning those the last call about which does not remove them. Two lists of calls with an addition each give equal builders, whatever the builder they start from, exactly if the last call about each item is of the same kind in both. Any calls with an addition come to one remove_corr and one add_corr with no common item, in either order; removals alone, at least one, come to one remove_corr, which keeps repetitions. Two calls may be exchanged exactly if neither adds an item the other removes. Removing what was added gives the items back exactly if none of them was there before, adding what was removed exactly if all of them were.", "quantifier": "every builder, every two sequences of calls of any length, every correspondence, every hash order", "why_tests_cant": "It compares all sequences of calls of any length over all builders; the conditions are exact.", "anchors": ["src/table.rs: TableBuilder::add_corr, remove_corr, preset, build", "src/table.rs: Table::add, remove", "src/corr.rs: Add, Sub, AddAssign, SubAssign"]}
{"id": "C98", "title": "Texts of three characters tell the modifiers apart", "statement": "Two modifiers that are no ligature translators do the same to all texts exactly if they do the same to all texts of at most three characters, and exactly if they are of the same kind and say the same (the same images, characters, character), or are a converter and an eliminator that change nothing. Two characters are not enough: trim and the dotted-space rule differ first on texts of three characters. A ligature translator with one rule does what some modifier of another kind does exactly if the rule replaces a text by itself or one character by at most one character.", "quantifier": "every two modifiers that can be configured, every rule, every text, every hash order", "why_tests_cant": "It is about all pairs of the infinitely many configurable modifiers; tests show that two differ but not that they do not.", "anchors": ["src/modifier_kind.rs: ModifierKind::modify", "src/modifier/character_converter.rs: modify", "src/modifier/character_eliminator.rs: modify", "src/modifier/consecutive_character_reducer.rs: modify", "src/modifier/dotted_space_eliminator.rs: modify", "src/modifier/trim.rs: modify", "src/modifier/ligature_translator.rs: modify", "src/modifier/neologdn.rs: modify"]}
{"id": "C99", "title": "In Python, what an object holds is its own", "statement": "In a Python program a normaliser makes the same of a text at any time after it was made, whatever is done to the table it was made of, to other objects or to files; it works with the items the table had when it was made, so that an item added later counts only for normalisers made later. A table holds what it held at first and what was added to this very table. An object with items keeps them for ever: changing the list it was made of, or the list obtained from its attribute items, does not change it. A statement that raises an exception changes nothing.", "quantifier": "every sequence of statements that make and use the objects of the module, every state of the environment and every hash order at each statement", "why_tests_cant": "Aliasing shows only in particular interleavings of making, changing and using objects; a test runs one.", "anchors": ["bindings/python3/src/lib.rs: Chanoma::new", "bindings/python3/src/lib.rs: Table::add", "bindings/python3/src/lib.rs: Correspondence", "bindings/python3/src/characters_set.rs"]}
{"id": "C100", "title": "Which modifiers mind the order of the characters", "statement": "A pipeline of character converters and character eliminators makes of two texts with the same characters in different orders two texts with the same characters, and a character occurs in the result as often as there are characters in the text of each of which alone the pipeline makes it. Of the other modifiers without rules of their own (reducer, dotted space eliminator, trim, neologdn) none does so for all texts. A ligature translator with one rule does so exactly if its key has at most one character or its value has the same characters as its key.", "quantifier": "every pipeline of converters and eliminators, every YAML entry that describes a modifier, every rule, every pair of texts and every hash order", "why_tests_cant": "That the order never matters is a claim about all pairs of rearranged texts; the condition on the rule is an equivalence over all rules.", "anchors": ["src/modifier/character_converter.rs: modify", "src/modifier/character_eliminator.rs: modify", "src/modifier/ligature_translator.rs: modify", "src/modifier/consecutive_character_reducer.rs: modify"]}
{"id": "C101", "title": "Programs joined by a pipe", "statement": "If calls of the chanoma program are joined by `|` in a shell, each one without an argument normalises the first line of what the one before has made, and the last one prints the result with status 0; two of them do what one normaliser with the modifiers of both does, unless the first makes a text with a line end. A program with an argument ignores what comes before. That a program panics does not show: the next one goes on with the empty text and ends with status 0; an error message about standard input is normalised as if it were the text. Without rc files two programs print what one with the options of both prints (`-p | -n`, `-n | -p` and `-p -n` are the same), unless both have -n: `-n | -n` can differ from `-n`.", "quantifier": "every number of programs, their options, environments and hash orders, and every standard input", "why_tests_cant": "The composition of processes with different environments, failing ones included, has infinitely many combinations; the equality of option orders is a claim about all texts.", "anchors": ["src/main.rs: main", "src/chanoma.rs: load_rc, use_preset, use_neologdn, normalize"]}
{"id": "C102", "title": "Which CSV files load the same, and what files put together load", "statement": "A table file without quotes loads the same items whichever line ends it uses, whether or not its last line is ended, with or without a byte order mark, and with or without empty lines after any line; all cells may be quoted. If a file is appended to another one (whose last line is ended and which has no quotes), the items are those of the first, one for each cell but the last of the header of the second, which is taken for a row, and those of the second. Inside quotes line ends count.", "quantifier": "every text of a CSV file, every list of rows, every file system", "why_tests_cant": "These are equalities between the results for all texts and all their variants.", "anchors": ["src/file.rs: table_from_csv_path"]}
{"id": "C103", "title": "What one row of a table file contributes", "statement": "One more row, anywhere in a CSV file, changes what the normaliser of the file makes of the characters that a cell of the row other than the last starts with and that no later row names, and of no others: they become the first character of the last cell. So it makes no difference to a text exactly if each character of the text that it names is named by a later row or has become that character anyway. Two neighbouring rows may be exchanged exactly if they make the same of every character that both name and no later row names.", "quantifier": "every two CSV files that differ in this way, every text, hash order and log level", "why_tests_cant": "The claims are equivalences over all tables and all texts.", "anchors": ["src/file.rs: table_from_csv_path", "src/modifier/character_converter.rs: modify", "src/chanoma.rs: from_config_file"]}
{"id": "C104", "title": "In the home directory rc files count twice", "statement": "Without CHANOMARC, the modifiers that a program started in a directory loads are those that count wherever it is started, followed by those of the rc files in that directory, and the first of the two that cannot be loaded is what fails. So if the files in ~/.config/chanoma give the modifiers a and those in the home directory b, a program started where there is no rc file runs a, b; in the home directory it runs a, b, b, and in ~/.config/chanoma it runs a, b, a. Without files in ~/.config/chanoma, a text is thus normalised twice in the home directory by what normalises it once elsewhere; with one CSV file there, the two agree on all texts exactly if no character that a row leads to is led to another character.", "quantifier": "every file system, home and current directory, hash order and text", "why_tests_cant": "The claims range over all file systems and all texts, and the last one is an equivalence; a test runs in one directory.", "anchors": ["src/configuration.rs: auto_load_dirs, exists_file_paths, file_paths, load", "src/chanoma.rs: load_rc"]}
{"id": "C105", "title": "Whether a sorted list of texts stays sorted", "statement": "Texts are in order if the first character in which they differ is smaller. A modifier of a configuration other than a ligature translator makes of texts in order always texts in order only if it changes no text at all or makes every text empty: converters that change a character, eliminators of some but not all characters, reducers, the dotted space eliminator, trim and neologdn do not. A ligature translator with one rule whose key is one character (other than U+10FFFF) does exactly if the value starts with this character, and one with an empty key always does. A normaliser made by calls of the preset and of neologdn does only if there are no calls.", "quantifier": "every YAML entry that describes a modifier, every rule with a key of at most one character, every sequence of calls, every pair of texts and every hash order", "why_tests_cant": "The claims are equivalences over all modifiers and all pairs of texts.", "anchors": ["src/modifier/character_converter.rs: modify", "src/modifier/character_eliminator.rs: modify", "src/modifier/consecutive_character_reducer.rs: modify", "src/modifier/ligature_translator.rs: modify", "src/modifier/trim.rs: modify", "src/chanoma.rs: normalize"]}
{"id": "C106", "title": "How many edits the results are apart", "statement": "If n insertions, deletions and replacements of one character turn one text into another, then the result of the one is turned into that of the other by at most n of them for a converter and an eliminator, 2n for a reducer, 3n for the dotted-space rule and neologdn; these numbers cannot be made smaller, for any n. In a pipeline of k modifiers without trim and ligature translators at most n(2k+1) do, and n if there are converters and eliminators only. With ligature translators there is a factor that depends on the pipeline only, for all hash orders, if for every rule it does not matter which one of two overlapping occurrences of its key is replaced. With trim there is none.", "quantifier": "every modifier described in YAML, every normaliser that the API can build, every n, every pair of texts, hash order and log level", "why_tests_cant": "The claims bound the distance of all pairs of results by that of the texts; that a bound cannot be made smaller is a claim for every n.", "anchors": ["src/chanoma.rs: normalize", "src/modifier/consecutive_character_reducer.rs: modify", "src/modifier/dotted_space_eliminator.rs: modify", "src/modifier/neologdn.rs: modify", "src/modifier/trim.rs: modify"]}
{"id": "C107", "title": "What is found in a normalised text stands in the text", "statement": "Whatever is part of a text normalised by converters, eliminators and reducers, however many, is the normalised form of a part of the text. In any pipeline without ligature translators whose converters leave the space as it is, the same holds of parts that have no space at their ends; so a search for a normalised word has no false hits, and if neologdn is not in the pipeline it succeeds exactly if some part of the text has the normalised form that is searched for. With a ligature translator there are false hits (with a to bb, b is found in a), and so there are for parts with outer spaces (a space is found in 1 1 with the dotted-space rule and an eliminator behind it).", "quantifier": "every normaliser that the API can build without ligature translators, every text, every part of its normalised form, every hash order", "why_tests_cant": "The claim is that for every part of every result there is a part of the text with a certain result.", "anchors": ["src/chanoma.rs: normalize", "src/modifier/character_converter.rs: modify", "src/modifier/character_eliminator.rs: modify", "src/modifier/consecutive_character_reducer.rs: modify", "src/modifier/dotted_space_eliminator.rs: modify", "src/modifier/trim.rs: modify", "src/modifier/neologdn.rs: modify"]}
{"id": "C108", "title": "Which readings of a text are kept", "statement": "A reading takes from each character of a text something or nothing, in order. A modifier other than a ligature translator keeps a reading of all texts exactly if it keeps that of all texts of at most two characters, that is if what it puts in is read as what it replaces and what it deletes is not read; a ligature translator does if each rule has a key and a value that are read alike, with one rule exactly then; a pipeline does if all its modifiers do. However often and in whatever order preset and neologdn are used, the values of the digits, the Latin letters with their case and the kana with their sound marks stay, in their order. The preset also keeps which digits stand together; neologdn does not: 10～20 becomes 1020.", "quantifier": "every reading into any type, every YAML entry that describes a modifier, every rule, every pipeline, every sequence of use_preset and use_neologdn, every text and every hash order", "why_tests_cant": "Tests compare results of particular texts; that nothing read from any text is lost or added, for whatever reading, is a statement about all texts and all functions of a character.", "anchors": ["src/modifier/character_converter.rs: modify", "src/modifier/character_eliminator.rs: modify", "src/modifier/consecutive_character_reducer.rs: modify", "src/modifier/ligature_translator.rs: modify", "src/modifier/neologdn.rs: modify", "src/chanoma.rs: use_preset, use_neologdn, normalize"]}
{"id": "C109", "title": "Which modifiers are superfluous beside another", "statement": "Let two modifiers, neither a ligature translator, follow each other. The second is superfluous, that is the pair does to every text what the first alone does, exactly if it is so for the texts of at most four characters, and exactly under a stated condition on the two configurations; the same holds of the first being superfluous. Three characters do not suffice. A superfluous modifier may be left out of any pipeline in which the two stand together, whatever stands before and after them, without changing any result.", "quantifier": "every two YAML entries that describe modifiers other than ligature translators, every pipeline around them, every text and every hash order", "why_tests_cant": "Whether one modifier can ever have something left to do after another depends on every text and every configuration; tests show only that it had nothing to do on the texts tried.", "anchors": ["src/modifier_kind.rs: from_yaml", "src/modifier/character_converter.rs: modify", "src/modifier/character_eliminator.rs: modify", "src/modifier/consecutive_character_reducer.rs: modify", "src/modifier/dotted_space_eliminator.rs: modify", "src/modifier/trim.rs: modify", "src/modifier/neologdn.rs: modify", "src/chanoma.rs: normalize"]}
{"id": "C110", "title": "When a ligature rule has nothing left to do", "statement": "Let a ligature translator have one rule, whose key is not empty and not the value. A text stays as it is exactly if it does not contain the key. Applying the rule once is enough for all texts exactly if no result contains the key, and this is so if it is so for the texts made of characters of the key that are not longer than the square of its length; it is so if key and value cannot overlap; for a key of one character exactly if the value does not contain it. If the value is not longer than the key, every text comes to rest if the rule is applied again and again, and does not contain the key then; if the value is shorter, after at most as many passes as the text has characters. If the value contains the key, every text that contains the key grows with each pass for ever.", "quantifier": "every rule with a non-empty key that is not the value, every text, every sequence of hash orders", "why_tests_cant": "Tests apply a rule to particular texts once; that the key cannot be left behind, or that repeating must end, is about all texts and any number of passes.", "anchors": ["src/modifier/ligature_translator.rs: modify", "src/chanoma.rs: normalize"]}
{"id": "C111", "title": "Pipelines whose ligature rules shorten come to rest", "statement": "If every ligature rule of a pipeline puts something shorter in place of its key, and its converters (and the folding of neologdn) together take no character round in a circle, every text that is normalised again and again comes to rest, whatever the hash orders of the passes, after at most (l + 1)(K + 1) - 1 passes for a text of l characters, with a K that depends on the pipeline only. What is left stays as it is under every hash order. If no modifier writes a character for another one, l passes are enough. No fixed number is enough for all texts: the rule that deletes ab takes n passes for n letters a followed by n letters b. What is left can depend on the hash orders.", "quantifier": "every pipeline obtained through the public interface whose rules shorten, every text, every sequence of hash orders", "why_tests_cant": "Coming to rest is about all texts and unboundedly many passes, each with hash orders of its own that a test cannot choose.", "anchors": ["src/modifier/ligature_translator.rs: modify", "src/modifier/neologdn.rs: modify", "src/modifier/character_converter.rs: modify", "src/chanoma.rs: normalize"]}
{"id": "C112", "title": "Rule maps that are done at once", "statement": "Let no key of a ligature translator be empty, no key overlap the beginning or the end of a value or be contained in one, be it its own value or another, and no value be contained in a key of more than one character (so that none is empty if there are such keys). Then no key is left in any result, whatever the hash order, even if the order decides what the result is, and normalising again, in whatever orders, changes nothing. For keys of one character it is enough that no value contains a key; values may be empty then. Without the condition it depends on the order how many passes are needed: with a to b and b to c one or two.", "quantifier": "every ligature translator that meets the condition, every text, every sequence of hash orders, every number of passes", "why_tests_cant": "Tests see one hash order at a time and particular texts; that nothing is left over in any order is about all of them.", "anchors": ["src/modifier/ligature_translator.rs: modify", "src/chanoma.rs: normalize"]}
{"id": "C113", "title": "When a ligature rule is superfluous beside another modifier", "statement": "Let a ligature translator with one rule, whose key is not empty and not the value, stand right after another modifier that is none. It is superfluous exactly if: a converter makes some character of the key of no character; an eliminator deletes some character of the key; a reducer reduces a character that is doubled in the key; after the dotted-space rule, a space of the key stands at none of the places that rule allows, if the key is put between two digits; after neologdn, the key put between two digits is no text that neologdn can make; after trim never. Right before another modifier it is superfluous if key and value are interchangeable for that modifier; before a converter, an eliminator and a reducer exactly if it makes the same of the two; before trim never (if there is a character other than the space that is not in the key).", "quantifier": "every rule with a non-empty key that is not the value, every YAML entry that describes a modifier other than a ligature translator, every text and every hash order", "why_tests_cant": "That a rule never finds its key is about everything the modifier before it can make of any text.", "anchors": ["src/modifier/ligature_translator.rs: modify", "src/modifier/neologdn.rs: modify", "src/modifier/dotted_space_eliminator.rs: modify", "src/modifier/trim.rs: modify", "src/chanoma.rs: normalize"]}
{"id": "C114", "title": "Pipelines that make texts lighter come to rest", "statement": "Suppose the characters can be given positive weights such that whatever a modifier writes weighs less than what it is written for: the character another one is converted to, the value of a ligature rule compared with its key (the weights of their characters added up), the character neologdn folds a character to, and a voiced letter compared with letter and mark. Then every text, passed through the pipeline again and again, comes to rest after no more passes than it weighs, whatever the hash orders, and a text that one pass leaves alone under some hash orders is left alone under all. For a converter there are such weights exactly if it takes no character round in a circle; for neologdn there are always (two for the characters it folds, one for the others).", "quantifier": "every pipeline of the public API, every weighting of the characters with positive numbers, every text, every choice of hash orders in every pass", "why_tests_cant": "Coming to rest is about infinitely many passes over infinitely many texts, under every iteration order of the hash maps.", "anchors": ["src/chanoma.rs: normalize", "src/modifier/ligature_translator.rs: modify", "src/modifier/character_converter.rs: modify", "src/modifier/neologdn.rs: modify"]}
