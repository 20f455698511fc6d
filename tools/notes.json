{
 "C32": {
  "note": "The claim is false of the code: C32_not_honoured is a counterexample. C32_truncated_partial states what the code does instead. C32_honoured_table_iff and C32_honoured_iff: exactly which tables, and which single items, are honoured."
 },
 "C25": {
  "note": "The location half of the claim is false: C25_not_located. C25_reducer_positions_partial gives, for every text, the exact list of positions reported; count, pieces and lengths are right, index/utf8_index are not."
 },
 "C26": {
  "note": "False for four modifiers (C26_never_reported); proved for converter, trim and reducer (C26_covered_partial). C26_when_reported: exactly when each of these three reports something. C26_which_modifiers: exactly which modifiers have the property."
 },
 "C27": {
  "note": "False (C27_not_uniform). C27_converter_units_partial: converter positions are uniform exactly when everything before them is ASCII. C27_which_modifiers: exactly which modifiers always report uniform positions. C27_ascii_texts: on ASCII texts all but the reducer do."
 },
 "C15": {
  "note": "False in general (C15_order_matters). C15_ligature_order_partial: for non-interfering rules (deletions and values sharing characters with other keys included) the result is the simultaneous left-to-right replacement, for every iteration order. C15_single_characters: exact criterion for rule maps with single-character keys. C15_separate_keys: exact criterion for rule maps whose keys do not overlap each other or themselves. C15_two_rules: for every rule map, if the order matters it matters for two of the rules. C15_short_texts: exact criterion for every rule map (overlapping keys included): finitely many texts over the characters of the keys decide. The unrestricted claim is false, so nothing more can be proved of it."
 },
 "C18": {
  "note": "False (C18_repeated_choonpu). C18_choonpu_partial characterises exactly for which texts it fails; C18_no_gap_partial is the claim for texts without spaces and tildes."
 },
 "C19": {
  "note": "False (C19_not_idempotent). C19_second_pass_partial: what the second pass does, exactly when it changes nothing, and that a third pass never changes anything; C19_iterate_partial: any number of passes."
 },
 "C21": {
  "note": "False for the empty pipeline (C21_empty_pipeline); C21_debug_partial proves it for every other pipeline the public interface can build."
 },
 "C29": {
  "note": "False: the writer emits no header, the reader skips the first record. The theorems say for every correspondence exactly which items come back."
 },
 "C33": {
  "note": "Never panicking, which one would expect, is false (C33_panics_exist). Exact characterisation for CSV, and the YAML outcome as a function of the parsed document."
 },
 "C34": {
  "note": "Refutes the documented list format (C34_list_format_panics); C34_mapping_format is the format that does load."
 },
 "C39": {
  "note": ".yml is rejected in CHANOMARC and not discovered (C39_yml_chanomarc, C39_yml_not_discovered), against the README; accepted by from_config_file."
 },
 "C40": {
  "note": "A file without extension panics (C40_panics); exact outcome for every environment in C40_chanomarc_outcome."
 },
 "C43": {
  "note": "Witnesses of panics in C43_panics_exist; C43_panics_iff characterises exactly when it panics."
 },
 "C45": {
  "note": "With -d an empty pipeline panics; C45_debug gives the exact outcome."
 },
 "C47": {
  "note": "Full coverage is refuted (C47_not_covered); C47_items gives the exact content, C47_functional the Unicode expansion outside six squares."
 },
 "C48": {
  "note": "Expansion is refuted for every table (C48_never_expanded); C48_first_character gives the exact result for every text."
 },
 "C37": {
  "note": "CHANOMARC counts as set only if it is valid UTF-8 (file_path_from_env uses env::var); any other value is ignored (C37_not_unicode_ignored)."
 },
 "C53": {
  "note": "The texts of errors of other crates (csv, serde_yaml, io) are parameters."
 },
 "C60": {
  "note": "Pipelines with trim are excluded (C60_not_trim refutes them)."
 }
}
