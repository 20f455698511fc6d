Axioms of the theorems in MANIFEST.json, as printed by `#print axioms`.

## Classical.choice, Quot.sound, propext (340 theorems)
Chanoma.C01_table_substitution
Chanoma.C01_pointwise
Chanoma.C01_several_tables
Chanoma.C02_panics_iff_empty_cell
Chanoma.C02_several_tables
Chanoma.C04_listing_canonical
Chanoma.C04_same_set_same_listing
Chanoma.C05_add_is_union
Chanoma.C05_add_comm
Chanoma.C05_add_hash_order
Chanoma.C05_add_assoc
Chanoma.C05_add_idem
Chanoma.C05_add_assign
Chanoma.C06_sub_is_difference
Chanoma.C06_add_sub
Chanoma.C06_sub_assign
Chanoma.C07_preset
Chanoma.C07_presetFold
Chanoma.C07_items
Chanoma.C08_preset_idempotent
Chanoma.C08_twice
Chanoma.C12_subsumes
Chanoma.C13_trim
Chanoma.C15_short_texts
Chanoma.C15_single_characters
Chanoma.C15_separate_keys
Chanoma.C15_two_rules
Chanoma.C16_neologdn
Chanoma.C17_no_residue
Chanoma.C18_repeated_choonpu
Chanoma.C18_choonpu_partial
Chanoma.C18_no_gap_partial
Chanoma.C19_not_idempotent
Chanoma.C19_second_pass_partial
Chanoma.C19_iterate_partial
Chanoma.C20_positions_agree
Chanoma.C21_debug_partial
Chanoma.C21_exactly
Chanoma.C22_call_order
Chanoma.C22_from_new
Chanoma.C22_records
Chanoma.C23_byte_count
Chanoma.C23_converter_positions
Chanoma.C23_positions_reproduce
Chanoma.C24_trim_positions
Chanoma.C25_located_exactly
Chanoma.C26_covered_partial
Chanoma.C26_never_reported
Chanoma.C26_when_reported
Chanoma.C26_which_modifiers
Chanoma.C27_converter_units_partial
Chanoma.C27_not_uniform
Chanoma.C27_which_modifiers
Chanoma.C27_ascii_texts
Chanoma.C28_rows_of_text
Chanoma.C28_loading_is_total
Chanoma.C28_not_utf8
Chanoma.C29_export_import_partial
Chanoma.C29_export_import_loses
Chanoma.C29_export_import_with_header
Chanoma.C30_yaml_round_trip
Chanoma.C30_document
Chanoma.C31_item_map
Chanoma.C32_not_honoured
Chanoma.C32_honoured_table_iff
Chanoma.C32_honoured_iff
Chanoma.C33_csv_panics_iff
Chanoma.C33_yaml_outcome
Chanoma.C33_unreadable
Chanoma.C34_list_format_panics
Chanoma.C34_mapping_format
Chanoma.C35_yaml_pipeline
Chanoma.C35_csv_pipeline
Chanoma.C36_unknown_modifier
Chanoma.C36_never_ok
Chanoma.C37_not_unicode_ignored
Chanoma.C38_search_order
Chanoma.C39_yml_chanomarc
Chanoma.C39_yml_not_discovered
Chanoma.C39_yml_config_file
Chanoma.C40_chanomarc_outcome
Chanoma.C41_from_path
Chanoma.C42_eliminator
Chanoma.C42_converter
Chanoma.C42_ligature
Chanoma.C42_plain
Chanoma.C42_pieces_unique
Chanoma.C42_eliminator_any
Chanoma.C42_converter_any
Chanoma.C43_panics_iff
Chanoma.C44_yaml_items
Chanoma.C44_add_from_csv
Chanoma.C45_prints_normalised
Chanoma.C45_debug
Chanoma.C45_failures
Chanoma.C45_input_cases
Chanoma.C46_normalize
Chanoma.C46_table_add_set
Chanoma.C47_items
Chanoma.C47_functional
Chanoma.C47_not_covered
Chanoma.C47_written_differently
Chanoma.C48_first_character
Chanoma.C48_preset_with_cjk
Chanoma.C48_never_expanded
Chanoma.C49_str_order
Chanoma.C49_item_order
Chanoma.C50_output_reimported
Chanoma.C51_sets
Chanoma.C51_listing
Chanoma.C51_partition
Chanoma.C52_ignores_texts
Chanoma.C52_distinct
Chanoma.C52_sorted_unique
Chanoma.C53_display_any
Chanoma.C53_extension_not_utf8
Chanoma.C53_python_exceptions
Chanoma.C53_python_wrong_shape
Chanoma.C53_python_chanomarc
Chanoma.C53_python_configfile
Chanoma.C53_unknown_modifier
Chanoma.C54_groups
Chanoma.C54_csv_text
Chanoma.C54_yaml_document
Chanoma.C54_output
Chanoma.C54_yaml_reimported
Chanoma.C55_from_csv_path
Chanoma.C55_from_yaml_path
Chanoma.C55_from_versus_add
Chanoma.C55_from_versus_add_yaml
Chanoma.C55_same_normaliser
Chanoma.C55_same_normaliser_yaml
Chanoma.C55_conflict_differs
Chanoma.C56_preset_without
Chanoma.C56_preset_without_set
Chanoma.C57_greatest_item_wins
Chanoma.C57_greatest_exists
Chanoma.C57_not_the_last
Chanoma.C58_either_order
Chanoma.C58_differ_iff
Chanoma.C59_never_longer
Chanoma.C60_modifier
Chanoma.C60_line_by_line
Chanoma.C60_neologdn
Chanoma.C60_cuts_iff
Chanoma.C61_neologdn_outputs
Chanoma.C61_neologdn_unchanged
Chanoma.C61_preset
Chanoma.C62_sequence_is_one_table
Chanoma.C62_chaining
Chanoma.C62_order_iff
Chanoma.C62_independent_tables
Chanoma.C62_idempotent_iff
Chanoma.C63_undo
Chanoma.C63_positions_determine_input
Chanoma.C63_calls
Chanoma.C64_string_is_yaml
Chanoma.C64_macro_is_yaml
Chanoma.C65_formats_agree
Chanoma.C66_building
Chanoma.C66_normalising
Chanoma.C66_cli
Chanoma.C66_short_texts
Chanoma.C67_preset
Chanoma.C67_neologdn
Chanoma.C68_sequences
Chanoma.C68_equal_iff
Chanoma.C69_example_table
Chanoma.C69_versus_preset
Chanoma.C69_idempotent
Chanoma.C69_example_yaml
Chanoma.C70_half_width_marks
Chanoma.C70_not_composed
Chanoma.C71_swap_iff
Chanoma.C71_in_file
Chanoma.C71_twice
Chanoma.C71_neologdn_iff
Chanoma.C71_neologdn_in_file
Chanoma.C72_restore
Chanoma.C72_lossy_iff
Chanoma.C72_lossy_ligature_iff
Chanoma.C73_cut_iff
Chanoma.C73_pieces
Chanoma.C74_contained
Chanoma.C74_neologdn_joined
Chanoma.C74_neologdn_iff
Chanoma.C74_neologdn_contained
Chanoma.C74_lost
Chanoma.C75_bounds
Chanoma.C76_same_iff
Chanoma.C76_alike_iff
Chanoma.C76_reversible_iff
Chanoma.C77_frame
Chanoma.C77_neologdn_skeleton
Chanoma.C77_kanji
Chanoma.C78_tables_iff
Chanoma.C78_saved
Chanoma.C78_not_neologdn
Chanoma.C79_same_on_short
Chanoma.C79_settled_on_short
Chanoma.C79_undone_on_short
Chanoma.C79_no_common_length
Chanoma.C79_few_characters
Chanoma.C80_rename
Chanoma.C80_positions
Chanoma.C81_growth
Chanoma.C81_order_and_length
Chanoma.C82_exact
Chanoma.C82_order
Chanoma.C82_text
Chanoma.C82_rejected
Chanoma.C82_program
Chanoma.C83_yaml
Chanoma.C83_yaml_nothing
Chanoma.C83_csv
Chanoma.C83_csv_yaml
Chanoma.C83_rc
Chanoma.C84_program
Chanoma.C85_same_entries
Chanoma.C85_equivalence
Chanoma.C85_notations
Chanoma.C85_tables
Chanoma.C85_equal_do_the_same
Chanoma.C85_same_records_iff
Chanoma.C85_not_conversely
Chanoma.C86_mixture
Chanoma.C86_yaml_outcome
Chanoma.C86_yaml_reading_fails
Chanoma.C86_csv_once
Chanoma.C86_neither_version
Chanoma.C86_search
Chanoma.C86_chanomarc
Chanoma.C86_vanished
Chanoma.C86_tables
Chanoma.C87_same_results
Chanoma.C87_records
Chanoma.C87_record_texts
Chanoma.C87_search
Chanoma.C87_quiet_run
Chanoma.C87_debug_run
Chanoma.C87_status
Chanoma.C88_only_grows
Chanoma.C88_settled
Chanoma.C88_neologdn
Chanoma.C88_neologdn_last
Chanoma.C88_unsettled
Chanoma.C89_backwards
Chanoma.C89_rules
Chanoma.C89_neologdn
Chanoma.C90_only_grows
Chanoma.C90_settled
Chanoma.C90_neologdn
Chanoma.C90_neologdn_first
Chanoma.C91_converter
Chanoma.C91_trim
Chanoma.C91_converters
Chanoma.C92_deciding
Chanoma.C92_needed
Chanoma.C92_alone
Chanoma.C92_pieces
Chanoma.C93_step
Chanoma.C93_sharp
Chanoma.C93_pipeline
Chanoma.C93_ligatures
Chanoma.C93_trim
Chanoma.C93_overlap
Chanoma.C94_one_file
Chanoma.C94_other_order
Chanoma.C94_iff
Chanoma.C94_single
Chanoma.C95_goes_round
Chanoma.C95_settles
Chanoma.C95_tables_iff
Chanoma.C95_three_passes
Chanoma.C95_any_number
Chanoma.C96_tables
Chanoma.C96_preset
Chanoma.C96_long
Chanoma.C97_last_call
Chanoma.C97_same
Chanoma.C97_two_calls
Chanoma.C97_removals
Chanoma.C97_exchange
Chanoma.C97_undo
Chanoma.C98_three_characters
Chanoma.C98_not_two
Chanoma.C98_one_rule
Chanoma.C99_table
Chanoma.C99_items_when_made
Chanoma.C99_late
Chanoma.C100_pipeline
Chanoma.C100_modifiers
Chanoma.C100_one_rule
Chanoma.C101_pipe
Chanoma.C101_comes_out
Chanoma.C101_together
Chanoma.C101_failure_hidden
Chanoma.C101_message_normalised
Chanoma.C101_options
Chanoma.C102_line_ends
Chanoma.C102_last_line
Chanoma.C102_empty_lines
Chanoma.C102_mark
Chanoma.C102_put_together
Chanoma.C102_quoted
Chanoma.C103_one_more_row
Chanoma.C103_no_difference
Chanoma.C103_exchange
Chanoma.C104_directories
Chanoma.C104_twice
Chanoma.C104_again
Chanoma.C104_table
Chanoma.C105_modifiers
Chanoma.C105_one_rule
Chanoma.C105_presets
Chanoma.C106_modifiers
Chanoma.C106_pipeline
Chanoma.C106_ligatures
Chanoma.C106_sharp
Chanoma.C106_trim
Chanoma.C107_part
Chanoma.C107_search
Chanoma.C107_false_hits
Chanoma.C108_modifiers
Chanoma.C108_presets
Chanoma.C108_numbers
Chanoma.C109_superfluous
Chanoma.C109_left_out
Chanoma.C109_not_three
Chanoma.C110_once
Chanoma.C110_one_character
Chanoma.C110_comes_to_rest
Chanoma.C111_comes_to_rest
Chanoma.C111_passes
Chanoma.C113_after
Chanoma.C113_before
Chanoma.C114_comes_to_rest
Chanoma.C114_any_order
Chanoma.C114_converter
Chanoma.C114_neologdn

## Quot.sound, propext (67 theorems)
Chanoma.C03_table_is_a_set
Chanoma.C03_table_add_remove
Chanoma.C03_starting_points
Chanoma.C06_sub_insensitive
Chanoma.C09_eliminator
Chanoma.C09_eliminator_parts
Chanoma.C11_dotted_space
Chanoma.C11_equations
Chanoma.C11_result_spaces
Chanoma.C14_single_ligature
Chanoma.C14_single_ligature_scan
Chanoma.C15_ligature_order_partial
Chanoma.C15_two_rules_not_conversely
Chanoma.C25_reducer_positions_partial
Chanoma.C25_runs_exist
Chanoma.C25_reported_runs
Chanoma.C25_not_located
Chanoma.C28_rows_become_items
Chanoma.C28_records_exist_unique
Chanoma.C28_item_origin
Chanoma.C32_truncated_partial
Chanoma.C37_chanomarc_precedence
Chanoma.C41_from_str
Chanoma.C43_unknown
Chanoma.C43_ligature_other
Chanoma.C44_add_from_yaml
Chanoma.C45_utf8
Chanoma.C46_constructor
Chanoma.C46_table_items
Chanoma.C46_table_outcome
Chanoma.C46_table_add
Chanoma.C52_lawful
Chanoma.C53_display
Chanoma.C53_text_determines
Chanoma.C59_only_delete
Chanoma.C64_own_parsers
Chanoma.C72_lossy_ligature
Chanoma.C73_ligature
Chanoma.C75_reducer_past_end
Chanoma.C81_attained
Chanoma.C84_exact
Chanoma.C84_unique
Chanoma.C84_rejected
Chanoma.C86_unchanged
Chanoma.C87_silent
Chanoma.C88_one_rule
Chanoma.C88_one_rule_sharp
Chanoma.C89_one_rule
Chanoma.C90_one_rule
Chanoma.C90_unsettled
Chanoma.C91_reducer
Chanoma.C91_reducer_end
Chanoma.C92_ligature
Chanoma.C95_growing
Chanoma.C96_reducer
Chanoma.C99_normaliser
Chanoma.C99_corr
Chanoma.C101_argument
Chanoma.C108_rules
Chanoma.C108_pipeline
Chanoma.C110_at_rest
Chanoma.C110_apart
Chanoma.C110_never
Chanoma.C111_any_number
Chanoma.C112_none_left
Chanoma.C112_at_once
Chanoma.C112_characters

## propext (23 theorems)
Chanoma.C04_equality
Chanoma.C10_reducer
Chanoma.C10_runs
Chanoma.C10_idempotent
Chanoma.C15_order_matters
Chanoma.C21_empty_pipeline
Chanoma.C22_constructors
Chanoma.C33_panics_exist
Chanoma.C40_panics
Chanoma.C42_reducer
Chanoma.C43_panics_exist
Chanoma.C50_difference
Chanoma.C60_separators
Chanoma.C60_not_trim
Chanoma.C72_lossy_ligature_longer
Chanoma.C89_no_overlap
Chanoma.C92_pipeline
Chanoma.C95_three_needed
Chanoma.C99_list
Chanoma.C99_raised
Chanoma.C101_not_twice
Chanoma.C111_order
Chanoma.C112_chain

## none (1 theorems)
Chanoma.C41_round_trip
