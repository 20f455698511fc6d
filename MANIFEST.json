{
 "claims": [
  {
   "property": "C01",
   "status": "proved",
   "theorems": [
    "Chanoma.C01_table_substitution",
    "Chanoma.C01_pointwise",
    "Chanoma.C01_several_tables"
   ],
   "note": ""
  },
  {
   "property": "C02",
   "status": "proved",
   "theorems": [
    "Chanoma.C02_panics_iff_empty_cell",
    "Chanoma.C02_several_tables"
   ],
   "note": ""
  },
  {
   "property": "C03",
   "status": "proved",
   "theorems": [
    "Chanoma.C03_table_is_a_set",
    "Chanoma.C03_table_add_remove",
    "Chanoma.C03_starting_points"
   ],
   "note": ""
  },
  {
   "property": "C04",
   "status": "proved",
   "theorems": [
    "Chanoma.C04_listing_canonical",
    "Chanoma.C04_same_set_same_listing",
    "Chanoma.C04_equality"
   ],
   "note": ""
  },
  {
   "property": "C05",
   "status": "proved",
   "theorems": [
    "Chanoma.C05_add_is_union",
    "Chanoma.C05_add_comm",
    "Chanoma.C05_add_hash_order",
    "Chanoma.C05_add_assoc",
    "Chanoma.C05_add_idem",
    "Chanoma.C05_add_assign"
   ],
   "note": ""
  },
  {
   "property": "C06",
   "status": "proved",
   "theorems": [
    "Chanoma.C06_sub_is_difference",
    "Chanoma.C06_add_sub",
    "Chanoma.C06_sub_assign",
    "Chanoma.C06_sub_insensitive"
   ],
   "note": ""
  },
  {
   "property": "C07",
   "status": "proved",
   "theorems": [
    "Chanoma.C07_preset",
    "Chanoma.C07_presetFold",
    "Chanoma.C07_items"
   ],
   "note": ""
  },
  {
   "property": "C08",
   "status": "proved",
   "theorems": [
    "Chanoma.C08_preset_idempotent",
    "Chanoma.C08_twice"
   ],
   "note": ""
  },
  {
   "property": "C09",
   "status": "proved",
   "theorems": [
    "Chanoma.C09_eliminator",
    "Chanoma.C09_eliminator_parts"
   ],
   "note": ""
  },
  {
   "property": "C10",
   "status": "proved",
   "theorems": [
    "Chanoma.C10_reducer",
    "Chanoma.C10_runs",
    "Chanoma.C10_idempotent"
   ],
   "note": ""
  },
  {
   "property": "C11",
   "status": "proved",
   "theorems": [
    "Chanoma.C11_dotted_space",
    "Chanoma.C11_equations",
    "Chanoma.C11_result_spaces"
   ],
   "note": ""
  },
  {
   "property": "C12",
   "status": "proved",
   "theorems": [
    "Chanoma.C12_subsumes"
   ],
   "note": ""
  },
  {
   "property": "C13",
   "status": "proved",
   "theorems": [
    "Chanoma.C13_trim"
   ],
   "note": ""
  },
  {
   "property": "C14",
   "status": "proved",
   "theorems": [
    "Chanoma.C14_single_ligature",
    "Chanoma.C14_single_ligature_scan"
   ],
   "note": ""
  },
  {
   "property": "C15",
   "status": "partial",
   "theorems": [
    "Chanoma.C15_short_texts",
    "Chanoma.C15_order_matters",
    "Chanoma.C15_ligature_order_partial",
    "Chanoma.C15_single_characters",
    "Chanoma.C15_separate_keys",
    "Chanoma.C15_two_rules",
    "Chanoma.C15_two_rules_not_conversely"
   ],
   "note": "False in general (C15_order_matters). C15_ligature_order_partial: for non-interfering rules (deletions and values sharing characters with other keys included) the result is the simultaneous left-to-right replacement, for every iteration order. C15_single_characters: exact criterion for rule maps with single-character keys. C15_separate_keys: exact criterion for rule maps whose keys do not overlap each other or themselves. C15_two_rules: for every rule map, if the order matters it matters for two of the rules. C15_short_texts: exact criterion for every rule map (overlapping keys included): finitely many texts over the characters of the keys decide. The unrestricted claim is false, so nothing more can be proved of it."
  },
  {
   "property": "C16",
   "status": "proved",
   "theorems": [
    "Chanoma.C16_neologdn"
   ],
   "note": ""
  },
  {
   "property": "C17",
   "status": "proved",
   "theorems": [
    "Chanoma.C17_no_residue"
   ],
   "note": ""
  },
  {
   "property": "C18",
   "status": "partial",
   "theorems": [
    "Chanoma.C18_repeated_choonpu",
    "Chanoma.C18_choonpu_partial",
    "Chanoma.C18_no_gap_partial"
   ],
   "note": "False (C18_repeated_choonpu). C18_choonpu_partial characterises exactly for which texts it fails; C18_no_gap_partial is the claim for texts without spaces and tildes."
  },
  {
   "property": "C19",
   "status": "partial",
   "theorems": [
    "Chanoma.C19_not_idempotent",
    "Chanoma.C19_second_pass_partial",
    "Chanoma.C19_iterate_partial"
   ],
   "note": "False (C19_not_idempotent). C19_second_pass_partial: what the second pass does, exactly when it changes nothing, and that a third pass never changes anything; C19_iterate_partial: any number of passes."
  },
  {
   "property": "C20",
   "status": "proved",
   "theorems": [
    "Chanoma.C20_positions_agree"
   ],
   "note": ""
  },
  {
   "property": "C21",
   "status": "partial",
   "theorems": [
    "Chanoma.C21_empty_pipeline",
    "Chanoma.C21_debug_partial",
    "Chanoma.C21_exactly"
   ],
   "note": "False for the empty pipeline (C21_empty_pipeline); C21_debug_partial proves it for every other pipeline the public interface can build."
  },
  {
   "property": "C22",
   "status": "proved",
   "theorems": [
    "Chanoma.C22_call_order",
    "Chanoma.C22_from_new",
    "Chanoma.C22_constructors",
    "Chanoma.C22_records"
   ],
   "note": ""
  },
  {
   "property": "C23",
   "status": "proved",
   "theorems": [
    "Chanoma.C23_byte_count",
    "Chanoma.C23_converter_positions",
    "Chanoma.C23_positions_reproduce"
   ],
   "note": ""
  },
  {
   "property": "C24",
   "status": "proved",
   "theorems": [
    "Chanoma.C24_trim_positions"
   ],
   "note": ""
  },
  {
   "property": "C25",
   "status": "partial",
   "theorems": [
    "Chanoma.C25_reducer_positions_partial",
    "Chanoma.C25_runs_exist",
    "Chanoma.C25_reported_runs",
    "Chanoma.C25_not_located",
    "Chanoma.C25_located_exactly"
   ],
   "note": "The location half of the claim is false: C25_not_located. C25_reducer_positions_partial gives, for every text, the exact list of positions reported; count, pieces and lengths are right, index/utf8_index are not."
  },
  {
   "property": "C26",
   "status": "partial",
   "theorems": [
    "Chanoma.C26_covered_partial",
    "Chanoma.C26_never_reported",
    "Chanoma.C26_when_reported",
    "Chanoma.C26_which_modifiers"
   ],
   "note": "False for four modifiers (C26_never_reported); proved for converter, trim and reducer (C26_covered_partial). C26_when_reported: exactly when each of these three reports something. C26_which_modifiers: exactly which modifiers have the property."
  },
  {
   "property": "C27",
   "status": "partial",
   "theorems": [
    "Chanoma.C27_converter_units_partial",
    "Chanoma.C27_not_uniform",
    "Chanoma.C27_which_modifiers",
    "Chanoma.C27_ascii_texts"
   ],
   "note": "False (C27_not_uniform). C27_converter_units_partial: converter positions are uniform exactly when everything before them is ASCII. C27_which_modifiers: exactly which modifiers always report uniform positions. C27_ascii_texts: on ASCII texts all but the reducer do."
  },
  {
   "property": "C28",
   "status": "proved",
   "theorems": [
    "Chanoma.C28_rows_become_items",
    "Chanoma.C28_rows_of_text",
    "Chanoma.C28_records_exist_unique",
    "Chanoma.C28_loading_is_total",
    "Chanoma.C28_not_utf8",
    "Chanoma.C28_item_origin"
   ],
   "note": ""
  },
  {
   "property": "C29",
   "status": "partial",
   "theorems": [
    "Chanoma.C29_export_import_partial",
    "Chanoma.C29_export_import_loses",
    "Chanoma.C29_export_import_with_header"
   ],
   "note": "False: the writer emits no header, the reader skips the first record. The theorems say for every correspondence exactly which items come back."
  },
  {
   "property": "C30",
   "status": "proved",
   "theorems": [
    "Chanoma.C30_yaml_round_trip",
    "Chanoma.C30_document"
   ],
   "note": ""
  },
  {
   "property": "C31",
   "status": "proved",
   "theorems": [
    "Chanoma.C31_item_map"
   ],
   "note": ""
  },
  {
   "property": "C32",
   "status": "partial",
   "theorems": [
    "Chanoma.C32_truncated_partial",
    "Chanoma.C32_not_honoured",
    "Chanoma.C32_honoured_table_iff",
    "Chanoma.C32_honoured_iff"
   ],
   "note": "The claim is false of the code: C32_not_honoured is a counterexample. C32_truncated_partial states what the code does instead. C32_honoured_table_iff and C32_honoured_iff: exactly which tables, and which single items, are honoured."
  },
  {
   "property": "C33",
   "status": "proved",
   "theorems": [
    "Chanoma.C33_csv_panics_iff",
    "Chanoma.C33_yaml_outcome",
    "Chanoma.C33_unreadable",
    "Chanoma.C33_panics_exist"
   ],
   "note": "Never panicking, which one would expect, is false (C33_panics_exist). Exact characterisation for CSV, and the YAML outcome as a function of the parsed document."
  },
  {
   "property": "C34",
   "status": "proved",
   "theorems": [
    "Chanoma.C34_list_format_panics",
    "Chanoma.C34_mapping_format"
   ],
   "note": "Refutes the documented list format (C34_list_format_panics); C34_mapping_format is the format that does load."
  },
  {
   "property": "C35",
   "status": "proved",
   "theorems": [
    "Chanoma.C35_yaml_pipeline",
    "Chanoma.C35_csv_pipeline"
   ],
   "note": ""
  },
  {
   "property": "C36",
   "status": "proved",
   "theorems": [
    "Chanoma.C36_unknown_modifier",
    "Chanoma.C36_never_ok"
   ],
   "note": ""
  },
  {
   "property": "C37",
   "status": "proved",
   "theorems": [
    "Chanoma.C37_chanomarc_precedence",
    "Chanoma.C37_not_unicode_ignored"
   ],
   "note": "CHANOMARC counts as set only if it is valid UTF-8 (file_path_from_env uses env::var); any other value is ignored (C37_not_unicode_ignored)."
  },
  {
   "property": "C38",
   "status": "proved",
   "theorems": [
    "Chanoma.C38_search_order"
   ],
   "note": ""
  },
  {
   "property": "C39",
   "status": "proved",
   "theorems": [
    "Chanoma.C39_yml_chanomarc",
    "Chanoma.C39_yml_not_discovered",
    "Chanoma.C39_yml_config_file"
   ],
   "note": ".yml is rejected in CHANOMARC and not discovered (C39_yml_chanomarc, C39_yml_not_discovered), against the README; accepted by from_config_file."
  },
  {
   "property": "C40",
   "status": "proved",
   "theorems": [
    "Chanoma.C40_chanomarc_outcome",
    "Chanoma.C40_panics"
   ],
   "note": "A file without extension panics (C40_panics); exact outcome for every environment in C40_chanomarc_outcome."
  },
  {
   "property": "C41",
   "status": "proved",
   "theorems": [
    "Chanoma.C41_from_str",
    "Chanoma.C41_round_trip",
    "Chanoma.C41_from_path"
   ],
   "note": ""
  },
  {
   "property": "C42",
   "status": "proved",
   "theorems": [
    "Chanoma.C42_eliminator",
    "Chanoma.C42_converter",
    "Chanoma.C42_reducer",
    "Chanoma.C42_ligature",
    "Chanoma.C42_plain",
    "Chanoma.C42_pieces_unique",
    "Chanoma.C42_eliminator_any",
    "Chanoma.C42_converter_any"
   ],
   "note": ""
  },
  {
   "property": "C43",
   "status": "proved",
   "theorems": [
    "Chanoma.C43_panics_iff",
    "Chanoma.C43_unknown",
    "Chanoma.C43_panics_exist",
    "Chanoma.C43_ligature_other"
   ],
   "note": "Witnesses of panics in C43_panics_exist; C43_panics_iff characterises exactly when it panics."
  },
  {
   "property": "C44",
   "status": "proved",
   "theorems": [
    "Chanoma.C44_yaml_items",
    "Chanoma.C44_add_from_csv",
    "Chanoma.C44_add_from_yaml"
   ],
   "note": ""
  },
  {
   "property": "C45",
   "status": "proved",
   "theorems": [
    "Chanoma.C45_prints_normalised",
    "Chanoma.C45_debug",
    "Chanoma.C45_failures",
    "Chanoma.C45_utf8",
    "Chanoma.C45_input_cases"
   ],
   "note": "With -d an empty pipeline panics; C45_debug gives the exact outcome."
  },
  {
   "property": "C46",
   "status": "proved",
   "theorems": [
    "Chanoma.C46_constructor",
    "Chanoma.C46_normalize",
    "Chanoma.C46_table_items",
    "Chanoma.C46_table_outcome",
    "Chanoma.C46_table_add",
    "Chanoma.C46_table_add_set"
   ],
   "note": ""
  },
  {
   "property": "C47",
   "status": "proved",
   "theorems": [
    "Chanoma.C47_items",
    "Chanoma.C47_functional",
    "Chanoma.C47_not_covered",
    "Chanoma.C47_written_differently"
   ],
   "note": "Full coverage is refuted (C47_not_covered); C47_items gives the exact content, C47_functional the Unicode expansion outside six squares."
  },
  {
   "property": "C48",
   "status": "proved",
   "theorems": [
    "Chanoma.C48_first_character",
    "Chanoma.C48_preset_with_cjk",
    "Chanoma.C48_never_expanded"
   ],
   "note": "Expansion is refuted for every table (C48_never_expanded); C48_first_character gives the exact result for every text."
  },
  {
   "property": "C49",
   "status": "proved",
   "theorems": [
    "Chanoma.C49_str_order",
    "Chanoma.C49_item_order"
   ],
   "note": ""
  },
  {
   "property": "C50",
   "status": "proved",
   "theorems": [
    "Chanoma.C50_output_reimported",
    "Chanoma.C50_difference"
   ],
   "note": ""
  },
  {
   "property": "C51",
   "status": "proved",
   "theorems": [
    "Chanoma.C51_sets",
    "Chanoma.C51_listing",
    "Chanoma.C51_partition"
   ],
   "note": ""
  },
  {
   "property": "C52",
   "status": "proved",
   "theorems": [
    "Chanoma.C52_lawful",
    "Chanoma.C52_ignores_texts",
    "Chanoma.C52_distinct",
    "Chanoma.C52_sorted_unique"
   ],
   "note": ""
  },
  {
   "property": "C53",
   "status": "proved",
   "theorems": [
    "Chanoma.C53_display_any",
    "Chanoma.C53_extension_not_utf8",
    "Chanoma.C53_python_exceptions",
    "Chanoma.C53_python_wrong_shape",
    "Chanoma.C53_display",
    "Chanoma.C53_text_determines",
    "Chanoma.C53_python_chanomarc",
    "Chanoma.C53_python_configfile",
    "Chanoma.C53_unknown_modifier"
   ],
   "note": "The texts of errors of other crates (csv, serde_yaml, io) are parameters."
  },
  {
   "property": "C54",
   "status": "proved",
   "theorems": [
    "Chanoma.C54_groups",
    "Chanoma.C54_csv_text",
    "Chanoma.C54_yaml_document",
    "Chanoma.C54_output",
    "Chanoma.C54_yaml_reimported"
   ],
   "note": ""
  },
  {
   "property": "C55",
   "status": "proved",
   "theorems": [
    "Chanoma.C55_from_csv_path",
    "Chanoma.C55_from_yaml_path",
    "Chanoma.C55_from_versus_add",
    "Chanoma.C55_from_versus_add_yaml",
    "Chanoma.C55_same_normaliser",
    "Chanoma.C55_same_normaliser_yaml",
    "Chanoma.C55_conflict_differs"
   ],
   "note": ""
  },
  {
   "property": "C56",
   "status": "proved",
   "theorems": [
    "Chanoma.C56_preset_without",
    "Chanoma.C56_preset_without_set"
   ],
   "note": ""
  },
  {
   "property": "C57",
   "status": "proved",
   "theorems": [
    "Chanoma.C57_greatest_item_wins",
    "Chanoma.C57_greatest_exists",
    "Chanoma.C57_not_the_last"
   ],
   "note": ""
  },
  {
   "property": "C58",
   "status": "proved",
   "theorems": [
    "Chanoma.C58_either_order",
    "Chanoma.C58_differ_iff"
   ],
   "note": ""
  },
  {
   "property": "C59",
   "status": "proved",
   "theorems": [
    "Chanoma.C59_only_delete",
    "Chanoma.C59_never_longer"
   ],
   "note": ""
  },
  {
   "property": "C60",
   "status": "proved",
   "theorems": [
    "Chanoma.C60_modifier",
    "Chanoma.C60_line_by_line",
    "Chanoma.C60_separators",
    "Chanoma.C60_neologdn",
    "Chanoma.C60_not_trim",
    "Chanoma.C60_cuts_iff"
   ],
   "note": "Pipelines with trim are excluded (C60_not_trim refutes them)."
  },
  {
   "property": "C61",
   "status": "proved",
   "theorems": [
    "Chanoma.C61_neologdn_outputs",
    "Chanoma.C61_neologdn_unchanged",
    "Chanoma.C61_preset"
   ],
   "note": ""
  },
  {
   "property": "C62",
   "status": "proved",
   "theorems": [
    "Chanoma.C62_sequence_is_one_table",
    "Chanoma.C62_chaining",
    "Chanoma.C62_order_iff",
    "Chanoma.C62_independent_tables",
    "Chanoma.C62_idempotent_iff"
   ],
   "note": ""
  },
  {
   "property": "C63",
   "status": "proved",
   "theorems": [
    "Chanoma.C63_undo",
    "Chanoma.C63_positions_determine_input",
    "Chanoma.C63_calls"
   ],
   "note": ""
  },
  {
   "property": "C64",
   "status": "proved",
   "theorems": [
    "Chanoma.C64_string_is_yaml",
    "Chanoma.C64_macro_is_yaml",
    "Chanoma.C64_own_parsers"
   ],
   "note": ""
  },
  {
   "property": "C65",
   "status": "proved",
   "theorems": [
    "Chanoma.C65_formats_agree"
   ],
   "note": ""
  },
  {
   "property": "C66",
   "status": "proved",
   "theorems": [
    "Chanoma.C66_building",
    "Chanoma.C66_normalising",
    "Chanoma.C66_cli",
    "Chanoma.C66_short_texts"
   ],
   "note": ""
  },
  {
   "property": "C67",
   "status": "proved",
   "theorems": [
    "Chanoma.C67_preset",
    "Chanoma.C67_neologdn"
   ],
   "note": ""
  },
  {
   "property": "C68",
   "status": "proved",
   "theorems": [
    "Chanoma.C68_sequences",
    "Chanoma.C68_equal_iff"
   ],
   "note": ""
  },
  {
   "property": "C69",
   "status": "proved",
   "theorems": [
    "Chanoma.C69_example_table",
    "Chanoma.C69_versus_preset",
    "Chanoma.C69_idempotent",
    "Chanoma.C69_example_yaml"
   ],
   "note": ""
  },
  {
   "property": "C70",
   "status": "proved",
   "theorems": [
    "Chanoma.C70_half_width_marks",
    "Chanoma.C70_not_composed"
   ],
   "note": ""
  },
  {
   "property": "C71",
   "status": "proved",
   "theorems": [
    "Chanoma.C71_swap_iff",
    "Chanoma.C71_in_file",
    "Chanoma.C71_twice",
    "Chanoma.C71_neologdn_iff",
    "Chanoma.C71_neologdn_in_file"
   ],
   "note": ""
  },
  {
   "property": "C72",
   "status": "proved",
   "theorems": [
    "Chanoma.C72_restore",
    "Chanoma.C72_lossy_iff",
    "Chanoma.C72_lossy_ligature",
    "Chanoma.C72_lossy_ligature_iff",
    "Chanoma.C72_lossy_ligature_longer"
   ],
   "note": ""
  },
  {
   "property": "C73",
   "status": "proved",
   "theorems": [
    "Chanoma.C73_cut_iff",
    "Chanoma.C73_ligature",
    "Chanoma.C73_pieces"
   ],
   "note": ""
  },
  {
   "property": "C74",
   "status": "proved",
   "theorems": [
    "Chanoma.C74_contained",
    "Chanoma.C74_neologdn_joined",
    "Chanoma.C74_neologdn_iff",
    "Chanoma.C74_neologdn_contained",
    "Chanoma.C74_lost"
   ],
   "note": ""
  },
  {
   "property": "C75",
   "status": "proved",
   "theorems": [
    "Chanoma.C75_bounds",
    "Chanoma.C75_reducer_past_end"
   ],
   "note": ""
  },
  {
   "property": "C76",
   "status": "proved",
   "theorems": [
    "Chanoma.C76_same_iff",
    "Chanoma.C76_alike_iff",
    "Chanoma.C76_reversible_iff"
   ],
   "note": ""
  },
  {
   "property": "C77",
   "status": "proved",
   "theorems": [
    "Chanoma.C77_frame",
    "Chanoma.C77_neologdn_skeleton",
    "Chanoma.C77_kanji"
   ],
   "note": ""
  },
  {
   "property": "C78",
   "status": "proved",
   "theorems": [
    "Chanoma.C78_tables_iff",
    "Chanoma.C78_saved",
    "Chanoma.C78_not_neologdn"
   ],
   "note": ""
  },
  {
   "property": "C79",
   "status": "proved",
   "theorems": [
    "Chanoma.C79_same_on_short",
    "Chanoma.C79_settled_on_short",
    "Chanoma.C79_undone_on_short",
    "Chanoma.C79_no_common_length",
    "Chanoma.C79_few_characters"
   ],
   "note": ""
  },
  {
   "property": "C80",
   "status": "proved",
   "theorems": [
    "Chanoma.C80_rename",
    "Chanoma.C80_positions"
   ],
   "note": ""
  },
  {
   "property": "C81",
   "status": "proved",
   "theorems": [
    "Chanoma.C81_growth",
    "Chanoma.C81_attained",
    "Chanoma.C81_order_and_length"
   ],
   "note": ""
  },
  {
   "property": "C82",
   "status": "proved",
   "theorems": [
    "Chanoma.C82_exact",
    "Chanoma.C82_order",
    "Chanoma.C82_text",
    "Chanoma.C82_rejected",
    "Chanoma.C82_program"
   ],
   "note": ""
  },
  {
   "property": "C83",
   "status": "proved",
   "theorems": [
    "Chanoma.C83_yaml",
    "Chanoma.C83_yaml_nothing",
    "Chanoma.C83_csv",
    "Chanoma.C83_csv_yaml",
    "Chanoma.C83_rc"
   ],
   "note": ""
  },
  {
   "property": "C84",
   "status": "proved",
   "theorems": [
    "Chanoma.C84_exact",
    "Chanoma.C84_program",
    "Chanoma.C84_unique",
    "Chanoma.C84_rejected"
   ],
   "note": ""
  },
  {
   "property": "C85",
   "status": "proved",
   "theorems": [
    "Chanoma.C85_same_entries",
    "Chanoma.C85_equivalence",
    "Chanoma.C85_notations",
    "Chanoma.C85_tables",
    "Chanoma.C85_equal_do_the_same",
    "Chanoma.C85_same_records_iff",
    "Chanoma.C85_not_conversely"
   ],
   "note": ""
  },
  {
   "property": "C86",
   "status": "proved",
   "theorems": [
    "Chanoma.C86_unchanged",
    "Chanoma.C86_mixture",
    "Chanoma.C86_yaml_outcome",
    "Chanoma.C86_yaml_reading_fails",
    "Chanoma.C86_csv_once",
    "Chanoma.C86_neither_version",
    "Chanoma.C86_search",
    "Chanoma.C86_chanomarc",
    "Chanoma.C86_vanished",
    "Chanoma.C86_tables"
   ],
   "note": ""
  },
  {
   "property": "C87",
   "status": "proved",
   "theorems": [
    "Chanoma.C87_same_results",
    "Chanoma.C87_records",
    "Chanoma.C87_record_texts",
    "Chanoma.C87_silent",
    "Chanoma.C87_search",
    "Chanoma.C87_quiet_run",
    "Chanoma.C87_debug_run",
    "Chanoma.C87_status"
   ],
   "note": ""
  },
  {
   "property": "C88",
   "status": "proved",
   "theorems": [
    "Chanoma.C88_only_grows",
    "Chanoma.C88_settled",
    "Chanoma.C88_neologdn",
    "Chanoma.C88_neologdn_last",
    "Chanoma.C88_one_rule",
    "Chanoma.C88_one_rule_sharp",
    "Chanoma.C88_unsettled"
   ],
   "note": ""
  },
  {
   "property": "C89",
   "status": "proved",
   "theorems": [
    "Chanoma.C89_backwards",
    "Chanoma.C89_one_rule",
    "Chanoma.C89_no_overlap",
    "Chanoma.C89_rules",
    "Chanoma.C89_neologdn"
   ],
   "note": ""
  },
  {
   "property": "C90",
   "status": "proved",
   "theorems": [
    "Chanoma.C90_only_grows",
    "Chanoma.C90_settled",
    "Chanoma.C90_neologdn",
    "Chanoma.C90_neologdn_first",
    "Chanoma.C90_one_rule",
    "Chanoma.C90_unsettled"
   ],
   "note": ""
  },
  {
   "property": "C91",
   "status": "proved",
   "theorems": [
    "Chanoma.C91_converter",
    "Chanoma.C91_reducer",
    "Chanoma.C91_reducer_end",
    "Chanoma.C91_trim",
    "Chanoma.C91_converters"
   ],
   "note": ""
  },
  {
   "property": "C92",
   "status": "proved",
   "theorems": [
    "Chanoma.C92_deciding",
    "Chanoma.C92_needed",
    "Chanoma.C92_alone",
    "Chanoma.C92_ligature",
    "Chanoma.C92_pieces",
    "Chanoma.C92_pipeline"
   ],
   "note": ""
  },
  {
   "property": "C93",
   "status": "proved",
   "theorems": [
    "Chanoma.C93_step",
    "Chanoma.C93_sharp",
    "Chanoma.C93_pipeline",
    "Chanoma.C93_ligatures",
    "Chanoma.C93_trim",
    "Chanoma.C93_overlap"
   ],
   "note": ""
  },
  {
   "property": "C94",
   "status": "proved",
   "theorems": [
    "Chanoma.C94_one_file",
    "Chanoma.C94_other_order",
    "Chanoma.C94_iff",
    "Chanoma.C94_single"
   ],
   "note": ""
  },
  {
   "property": "C95",
   "status": "proved",
   "theorems": [
    "Chanoma.C95_goes_round",
    "Chanoma.C95_settles",
    "Chanoma.C95_tables_iff",
    "Chanoma.C95_three_passes",
    "Chanoma.C95_three_needed",
    "Chanoma.C95_any_number",
    "Chanoma.C95_growing"
   ],
   "note": ""
  },
  {
   "property": "C96",
   "status": "proved",
   "theorems": [
    "Chanoma.C96_tables",
    "Chanoma.C96_preset",
    "Chanoma.C96_long",
    "Chanoma.C96_reducer"
   ],
   "note": ""
  },
  {
   "property": "C97",
   "status": "proved",
   "theorems": [
    "Chanoma.C97_last_call",
    "Chanoma.C97_same",
    "Chanoma.C97_two_calls",
    "Chanoma.C97_removals",
    "Chanoma.C97_exchange",
    "Chanoma.C97_undo"
   ],
   "note": ""
  },
  {
   "property": "C98",
   "status": "proved",
   "theorems": [
    "Chanoma.C98_three_characters",
    "Chanoma.C98_not_two",
    "Chanoma.C98_one_rule"
   ],
   "note": ""
  },
  {
   "property": "C99",
   "status": "proved",
   "theorems": [
    "Chanoma.C99_normaliser",
    "Chanoma.C99_corr",
    "Chanoma.C99_table",
    "Chanoma.C99_list",
    "Chanoma.C99_raised",
    "Chanoma.C99_items_when_made",
    "Chanoma.C99_late"
   ],
   "note": ""
  },
  {
   "property": "C100",
   "status": "proved",
   "theorems": [
    "Chanoma.C100_pipeline",
    "Chanoma.C100_modifiers",
    "Chanoma.C100_one_rule"
   ],
   "note": ""
  },
  {
   "property": "C101",
   "status": "proved",
   "theorems": [
    "Chanoma.C101_pipe",
    "Chanoma.C101_comes_out",
    "Chanoma.C101_together",
    "Chanoma.C101_argument",
    "Chanoma.C101_failure_hidden",
    "Chanoma.C101_message_normalised",
    "Chanoma.C101_options",
    "Chanoma.C101_not_twice"
   ],
   "note": ""
  },
  {
   "property": "C102",
   "status": "proved",
   "theorems": [
    "Chanoma.C102_line_ends",
    "Chanoma.C102_last_line",
    "Chanoma.C102_empty_lines",
    "Chanoma.C102_mark",
    "Chanoma.C102_put_together",
    "Chanoma.C102_quoted"
   ],
   "note": ""
  },
  {
   "property": "C103",
   "status": "proved",
   "theorems": [
    "Chanoma.C103_one_more_row",
    "Chanoma.C103_no_difference",
    "Chanoma.C103_exchange"
   ],
   "note": ""
  },
  {
   "property": "C104",
   "status": "proved",
   "theorems": [
    "Chanoma.C104_directories",
    "Chanoma.C104_twice",
    "Chanoma.C104_again",
    "Chanoma.C104_table"
   ],
   "note": ""
  },
  {
   "property": "C105",
   "status": "proved",
   "theorems": [
    "Chanoma.C105_modifiers",
    "Chanoma.C105_one_rule",
    "Chanoma.C105_presets"
   ],
   "note": ""
  },
  {
   "property": "C106",
   "status": "proved",
   "theorems": [
    "Chanoma.C106_modifiers",
    "Chanoma.C106_pipeline",
    "Chanoma.C106_ligatures",
    "Chanoma.C106_sharp",
    "Chanoma.C106_trim"
   ],
   "note": ""
  },
  {
   "property": "C107",
   "status": "proved",
   "theorems": [
    "Chanoma.C107_part",
    "Chanoma.C107_search",
    "Chanoma.C107_false_hits"
   ],
   "note": ""
  },
  {
   "property": "C108",
   "status": "proved",
   "theorems": [
    "Chanoma.C108_modifiers",
    "Chanoma.C108_rules",
    "Chanoma.C108_pipeline",
    "Chanoma.C108_presets",
    "Chanoma.C108_numbers"
   ],
   "note": ""
  },
  {
   "property": "C109",
   "status": "proved",
   "theorems": [
    "Chanoma.C109_superfluous",
    "Chanoma.C109_left_out",
    "Chanoma.C109_not_three"
   ],
   "note": ""
  },
  {
   "property": "C110",
   "status": "proved",
   "theorems": [
    "Chanoma.C110_at_rest",
    "Chanoma.C110_once",
    "Chanoma.C110_apart",
    "Chanoma.C110_one_character",
    "Chanoma.C110_comes_to_rest",
    "Chanoma.C110_never"
   ],
   "note": ""
  },
  {
   "property": "C111",
   "status": "proved",
   "theorems": [
    "Chanoma.C111_comes_to_rest",
    "Chanoma.C111_passes",
    "Chanoma.C111_any_number",
    "Chanoma.C111_order"
   ],
   "note": ""
  },
  {
   "property": "C112",
   "status": "proved",
   "theorems": [
    "Chanoma.C112_none_left",
    "Chanoma.C112_at_once",
    "Chanoma.C112_characters",
    "Chanoma.C112_chain"
   ],
   "note": ""
  },
  {
   "property": "C113",
   "status": "proved",
   "theorems": [
    "Chanoma.C113_after",
    "Chanoma.C113_before"
   ],
   "note": ""
  },
  {
   "property": "C114",
   "status": "proved",
   "theorems": [
    "Chanoma.C114_comes_to_rest",
    "Chanoma.C114_any_order",
    "Chanoma.C114_converter",
    "Chanoma.C114_neologdn"
   ],
   "note": ""
  }
 ]
}