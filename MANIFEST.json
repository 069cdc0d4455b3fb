{
 "claims": [
  {
   "property": "C01",
   "status": "proved",
   "theorems": [
    "Props.C01_list_path_accumulates"
   ],
   "note": "All trees, all paths without null item, any number of records."
  },
  {
   "property": "C02",
   "status": "proved",
   "theorems": [
    "Props.C02_plain_path"
   ],
   "note": "Paths whose items are not turned into numbers (that case is C06, false)."
  },
  {
   "property": "C03",
   "status": "proved",
   "theorems": [
    "Props.C03_double_star_first_wins"
   ],
   "note": ""
  },
  {
   "property": "C04",
   "status": "proved",
   "theorems": [
    "Props.C04_other_paths_untouched"
   ],
   "note": "Excludes null items (C05), numeric conversion (C06) and lists directly inside of lists."
  },
  {
   "property": "C05",
   "status": "partial",
   "theorems": [
    "Props.C05_null_path_key_leaks",
    "Props.C05_null_last_merges_partial",
    "Props.C05_null_middle_skipped_partial"
   ],
   "note": "False of the code when the parent was not saved before (witness); proved when the parent record exists."
  },
  {
   "property": "C06",
   "status": "partial",
   "theorems": [
    "Props.C06_numeric_key_second_record_loses_all",
    "Props.C06_loses_everything",
    "Props.C06_no_loss_partial"
   ],
   "note": "False of the code: second record on a plain numeric path turns the results into None; proved for the other cases."
  },
  {
   "property": "C07",
   "status": "proved",
   "theorems": [
    "Props.C07_child_goes_to_last_parent",
    "Props.C85_nested_groups",
    "Props.C85_line_before_start"
   ],
   "note": ""
  },
  {
   "property": "C08",
   "status": "proved",
   "theorems": [
    "Props.C08_late_match_merges_into_last",
    "Props.C08_late_match_merges_into_dict",
    "Props.C08_late_match_no_error",
    "Props.C85_nested_groups"
   ],
   "note": ""
  },
  {
   "property": "C09",
   "status": "proved",
   "theorems": [
    "Props.C09_blocked_path_changes_nothing"
   ],
   "note": ""
  },
  {
   "property": "C10",
   "status": "proved",
   "theorems": [
    "Props.C10_with_ends",
    "Props.C10_with_functions",
    "Props.C10_flat_group",
    "Props.C10_flat_group_list"
   ],
   "note": "End to end for the results machine: every sequence of start/rejected start/ordinary matches of a top group with a path without placeholders. Groups with functions, joined lines and _end_ are C13, C15, C18."
  },
  {
   "property": "C11",
   "status": "proved",
   "theorems": [
    "Props.C11_first_value_is_kept"
   ],
   "note": ""
  },
  {
   "property": "C12",
   "status": "proved",
   "theorems": [
    "Props.C12_defaults_fill_the_rest",
    "Props.C12_start_takes_group_defaults"
   ],
   "note": "Groups without functions (functions may change the record at will)."
  },
  {
   "property": "C13",
   "status": "proved",
   "theorems": [
    "Props.C13_end_silences_group",
    "Props.C13_ended_group_is_silent"
   ],
   "note": "For all texts with several matches per position; group functions that do not touch the set of ended groups (no built-in one does)."
  },
  {
   "property": "C14",
   "status": "proved",
   "theorems": [
    "Props.C14_rejected_start_drops_lines"
   ],
   "note": ""
  },
  {
   "property": "C15",
   "status": "proved",
   "theorems": [
    "Props.C15_joined_in_order",
    "Props.C15_lists_concatenated"
   ],
   "note": ""
  },
  {
   "property": "C16",
   "status": "partial",
   "theorems": [
    "Props.C16_child_of_ended_is_silent_partial",
    "Props.C16_grandchild_leaks"
   ],
   "note": "False of the code below the first level (witness: grandchild reported); proved for direct children."
  },
  {
   "property": "C17",
   "status": "proved",
   "theorems": [
    "Props.C17_choice",
    "Props.C17_current_group",
    "Props.C17_preference",
    "Props.C17_only_the_chosen_counts"
   ],
   "note": ""
  },
  {
   "property": "C18",
   "status": "proved",
   "theorems": [
    "Props.C18_rejected_record_leaves_no_trace",
    "Props.C18_rejected_late_match_leaves_no_trace"
   ],
   "note": "For group functions that do not write into the results themselves (itemize with a path does)."
  },
  {
   "property": "C19",
   "status": "proved",
   "theorems": [
    "Props.C19_named_variables_saved",
    "Props.C19_nothing_without_matches"
   ],
   "note": "Tags whose paths part from each other, without placeholders."
  },
  {
   "property": "C25",
   "status": "proved",
   "theorems": [
    "Props.C25_rendered_line_parses_back",
    "Props.C25_matches_are_renderings"
   ],
   "note": "From the template text to the matches found in a text; literal text directly at a variable must not contain digits."
  },
  {
   "property": "C26",
   "status": "proved",
   "theorems": [
    "Props.C26_C27_literal_piece",
    "Props.C26_C27_literal_line",
    "Props.C25_matches_are_renderings"
   ],
   "note": ""
  },
  {
   "property": "C27",
   "status": "proved",
   "theorems": [
    "Props.C26_C27_literal_piece",
    "Props.C26_C27_literal_line"
   ],
   "note": ""
  },
  {
   "property": "C28",
   "status": "proved",
   "theorems": [
    "Props.C28_whole_lines"
   ],
   "note": "User patterns that can match a newline are excluded."
  },
  {
   "property": "C29",
   "status": "proved",
   "theorems": [
    "Props.C29_default_pattern"
   ],
   "note": ""
  },
  {
   "property": "C30",
   "status": "proved",
   "theorems": [
    "Props.C30_capture_names"
   ],
   "note": ""
  },
  {
   "property": "C63",
   "status": "partial",
   "theorems": [
    "Props.C63_names_clash",
    "Props.C63_clash_not_loaded",
    "Props.C63_identifiers_kept_apart_partial"
   ],
   "note": "False in general (witnesses: the line is not loaded); holds for names that are identifiers."
  },
  {
   "property": "C64",
   "status": "partial",
   "theorems": [
    "Props.C64_line_action",
    "Props.C64_variable_action",
    "Props.C64_join_lost"
   ],
   "note": "Rule proved; that joinmatches always joins is false (witness)."
  },
  {
   "property": "C65",
   "status": "proved",
   "theorems": [
    "Props.C65_line_classes"
   ],
   "note": ""
  },
  {
   "property": "C20",
   "status": "proved",
   "theorems": [
    "Props.C20_positions_ascending",
    "Props.C20_same_position_template_order"
   ],
   "note": "order of positions for every group; order within a position for groups without _end_ and start defaults"
  },
  {
   "property": "C21",
   "status": "proved",
   "theorems": [
    "Props.C21_first_rejection",
    "Props.C21_all_pass",
    "Props.C21_line_rejected",
    "Props.C21_rejected_match"
   ],
   "note": ""
  },
  {
   "property": "C22",
   "status": "proved",
   "theorems": [
    "Props.C22_string_invariant",
    "Props.C22_no_fabricated_values"
   ],
   "note": ""
  },
  {
   "property": "C23",
   "status": "partial",
   "theorems": [
    "Props.C23_child_after_parent_start",
    "Props.C23_child_before_parent_end",
    "Props.C23_end_ineffective_after_preamble",
    "Props.C23_child_of_absent_parent"
   ],
   "note": "the two witnesses show where the code does not do what the documentation says"
  },
  {
   "property": "C24",
   "status": "proved",
   "theorems": [
    "Props.C24_defaults_once",
    "Props.C24_nothing",
    "Props.C24_defaults_record"
   ],
   "note": ""
  },
  {
   "property": "C31",
   "status": "proved",
   "theorems": [
    "Props.C31_add_input_distinct",
    "Props.C31_no_data_no_input"
   ],
   "note": "the file system may differ from call to call"
  },
  {
   "property": "C32",
   "status": "proved",
   "theorems": [
    "Props.C32_set_input",
    "Props.C32_set_is_clear_add"
   ],
   "note": ""
  },
  {
   "property": "C33",
   "status": "proved",
   "theorems": [
    "Props.C33_per_input_entries",
    "Props.C33_parse_one_per_input",
    "Props.C33_upper_case_method_loses_results"
   ],
   "note": "the last theorem: a method written in upper case is accepted but the results are dropped"
  },
  {
   "property": "C34",
   "status": "proved",
   "theorems": [
    "Props.C34_per_template_combined",
    "Props.C34_second_parse_replaces"
   ],
   "note": ""
  },
  {
   "property": "C39",
   "status": "proved",
   "theorems": [
    "Props.C39_mode",
    "Props.C39_count"
   ],
   "note": ""
  },
  {
   "property": "C40",
   "status": "proved",
   "theorems": [
    "Props.C40_list",
    "Props.C40_flat_list",
    "Props.C40_dictionary"
   ],
   "note": "result() without output attributes; that reading does not change results holds by construction of the model"
  },
  {
   "property": "C41",
   "status": "proved",
   "theorems": [
    "Props.C41_add_vars"
   ],
   "note": ""
  },
  {
   "property": "C42",
   "status": "partial",
   "theorems": [
    "Props.C42_clear_result",
    "Props.C42_parse_after_clear_partial",
    "Props.C42_globals_survive_clear"
   ],
   "note": "global variables are not cleared, so the second half holds only for functions that do not change them"
  },
  {
   "property": "C43",
   "status": "proved",
   "theorems": [
    "Props.C43_no_leak"
   ],
   "note": ""
  },
  {
   "property": "C44",
   "status": "partial",
   "theorems": [
    "Props.C44_routing",
    "Props.C44_groups_run",
    "Props.C44_more_data_partial",
    "Props.C44_order_after_second_call"
   ],
   "note": "after data are added to an existing input the order is that of a Python set"
  },
  {
   "property": "C47",
   "status": "partial",
   "theorems": [
    "Props.C47_anonymous",
    "Props.C47_anonymous_only",
    "Props.C47_single_record_not_a_list"
   ],
   "note": ""
  },
  {
   "property": "C62",
   "status": "proved",
   "theorems": [
    "Props.C62_condition_fails",
    "Props.C62_output"
   ],
   "note": ""
  },
  {
   "property": "C35",
   "status": "proved",
   "theorems": [
    "Props.C35_multi_same_entries",
    "Props.C35_multi_always_finishes"
   ],
   "note": "workers start with no global variables, so the one-process run compared with does too; functions that keep global variables unchanged"
  },
  {
   "property": "C36",
   "status": "partial",
   "theorems": [
    "Props.C36_single_item_partial",
    "Props.C36_only_one_item_survives",
    "Props.C36_multi_differs"
   ],
   "note": "false of the code for two or more data items: only one item's results survive"
  },
  {
   "property": "C37",
   "status": "partial",
   "theorems": [
    "Props.C37_worker_functions",
    "Props.C37_custom_found",
    "Props.C37_other_scopes_partial",
    "Props.C37_custom_hides_builtins"
   ],
   "note": "false of the code in a scope that has a custom function"
  },
  {
   "property": "C38",
   "status": "partial",
   "theorems": [
    "Props.C38_always_finishes_partial",
    "Props.C38_raising_item_hangs",
    "Props.C38_runs_bounded"
   ],
   "note": "false of the code when parsing raises in a worker"
  },
  {
   "property": "C45",
   "status": "partial",
   "theorems": [
    "Props.C45_exact",
    "Props.C45_known_resolved_partial",
    "Props.C45_unknown_leaves_name"
   ],
   "note": "false of the code for a name that follows an unknown one; outputs with different names"
  },
  {
   "property": "C46",
   "status": "partial",
   "theorems": [
    "Props.C46_every_start_own_table_partial",
    "Props.C46_used_iff",
    "Props.C46_used_from_third_start",
    "Props.C46_other_object_fails"
   ],
   "note": "false of the code for a cache file with some other pickled object"
  },
  {
   "property": "C48",
   "status": "proved",
   "theorems": [
    "Props.C48_unrange_expands",
    "Props.C48_unrange_no_range",
    "Props.C48_other_ranges"
   ],
   "note": "ascending ranges; malformed ranges raise, and a-a gives a twice (C48_other_ranges)"
  },
  {
   "property": "C49",
   "status": "proved",
   "theorems": [
    "Props.C49_to_cidr_counts_ones",
    "Props.C49_to_cidr_of_netmask",
    "Props.C49_to_cidr_other"
   ],
   "note": ""
  },
  {
   "property": "C50",
   "status": "proved",
   "theorems": [
    "Props.C50_mac_eui",
    "Props.C50_mac_eui_other",
    "Props.C50_mac_eui_idempotent"
   ],
   "note": "alphanumeric and lower case: ASCII"
  },
  {
   "property": "C51",
   "status": "proved",
   "theorems": [
    "Props.C51_item_list",
    "Props.C51_item_string"
   ],
   "note": ""
  },
  {
   "property": "C52",
   "status": "proved",
   "theorems": [
    "Props.C52_truncate",
    "Props.C52_truncate_zero",
    "Props.C52_truncate_negative",
    "Props.C52_truncate_twice_calls"
   ],
   "note": "twice: non-negative counts"
  },
  {
   "property": "C59",
   "status": "proved",
   "theorems": [
    "Props.C59_count_counts",
    "Props.C59_count_accepts"
   ],
   "note": ""
  },
  {
   "property": "C60",
   "status": "proved",
   "theorems": [
    "Props.C60_comparisons",
    "Props.C60_isdigit_notdigit"
   ],
   "note": ""
  },
  {
   "property": "C61",
   "status": "proved",
   "theorems": [
    "Props.C61_cidr_match_interface",
    "Props.C61_cidr_match_address",
    "Props.C61_cidr_match_other"
   ],
   "note": "on address objects; reading addresses from text is not modelled"
  },
  {
   "property": "C66",
   "status": "proved",
   "theorems": [
    "Props.C66_checks_keep_variables"
   ],
   "note": "for the modelled functions"
  },
  {
   "property": "C67",
   "status": "partial",
   "theorems": [
    "Props.C67_macro_errors_surface_partial",
    "Props.C67_macro_keyError_hidden"
   ],
   "note": "false of the code for KeyError"
  },
  {
   "property": "C53",
   "status": "proved",
   "theorems": [
    "Props.C53_contains",
    "Props.C53_containsall",
    "Props.C53_exclude",
    "Props.C53_excludeall"
   ],
   "note": ""
  },
  {
   "property": "C54",
   "status": "proved",
   "theorems": [
    "Props.C54_expand",
    "Props.C54_expand_conflicts"
   ],
   "note": "with a witness of what happens to names that are not prefix-free"
  },
  {
   "property": "C68",
   "status": "partial",
   "theorems": [
    "Props.C68_contains_any_partial",
    "Props.C68_contains_order_matters",
    "Props.C68_exclude_ignores_defaulted"
   ],
   "note": "false of the code for variables with defaults; proved without"
  },
  {
   "property": "C69",
   "status": "proved",
   "theorems": [
    "Props.C69_record_then_set",
    "Props.C69_record_absent",
    "Props.C69_set_unknown"
   ],
   "note": ""
  },
  {
   "property": "C70",
   "status": "proved",
   "theorems": [
    "Props.C70_del"
   ],
   "note": ""
  },
  {
   "property": "C71",
   "status": "proved",
   "theorems": [
    "Props.C71_to_int",
    "Props.C71_to_int_all",
    "Props.C71_to_int_twice_truncates"
   ],
   "note": "float() and int() of floats are parameters"
  },
  {
   "property": "C72",
   "status": "proved",
   "theorems": [
    "Props.C72_items2dict",
    "Props.C72_items2dict_same"
   ],
   "note": ""
  },
  {
   "property": "C73",
   "status": "proved",
   "theorems": [
    "Props.C73_group_lookup",
    "Props.C73_lookup_non_table"
   ],
   "note": "lookups by name; template and group sources are C146"
  },
  {
   "property": "C74",
   "status": "proved",
   "theorems": [
    "Props.C74_value_checks"
   ],
   "note": ""
  },
  {
   "property": "C75",
   "status": "proved",
   "theorems": [
    "Props.C75_itemize",
    "Props.C75_placeholders",
    "Props.C75_itemize_path"
   ],
   "note": "With a path argument: a path of plain names, in results where the dictionaries above the last name have no other keys."
  },
  {
   "property": "C76",
   "status": "proved",
   "theorems": [
    "Props.C76_macro_sequence",
    "Props.C76_one_macro",
    "Props.C76_macro_one"
   ],
   "note": ""
  },
  {
   "property": "C55",
   "status": "partial",
   "theorems": [
    "Props.C55_dict_to_list",
    "Props.C55_of_list",
    "Props.C55_unchanged_partial",
    "Props.C55_other_shapes",
    "Props.C55_changes_the_results"
   ],
   "note": "the conversion is proved; data of other shape are not always unchanged, and the results are changed in place: false of the code"
  },
  {
   "property": "C56",
   "status": "proved",
   "theorems": [
    "Props.C56_table",
    "Props.C56_dict_is_list",
    "Props.C56_other"
   ],
   "note": ""
  },
  {
   "property": "C57",
   "status": "proved",
   "theorems": [
    "Props.C57_csv_round_trip",
    "Props.C57_string_cells",
    "Props.C57_quotes_not_escaped"
   ],
   "note": ""
  },
  {
   "property": "C58",
   "status": "proved",
   "theorems": [
    "Props.C58_load_csv",
    "Props.C58_key_column",
    "Props.C58_csv_into_lookup",
    "Props.C58_ragged_rows",
    "Props.C58_load_csv_text",
    "Props.C58_key_column_text",
    "Props.C58_line_break_lost"
   ],
   "note": "csv.reader and splitlines of Python are modelled, too. C58_load_csv_text starts from a grammar of CSV texts; C58_line_break_lost: a line end inside quotes is lost."
  },
  {
   "property": "C77",
   "status": "proved",
   "theorems": [
    "Props.C77_traverse",
    "Props.C77_traverse_strict"
   ],
   "note": ""
  },
  {
   "property": "C79",
   "status": "proved",
   "theorems": [
    "Props.C79_meaningless_lines",
    "Props.C79_no_text_raises",
    "Props.C79_no_tail_raises"
   ],
   "note": "the second and third theorem show that a missing text (not: an empty one) raises"
  },
  {
   "property": "C80",
   "status": "proved",
   "theorems": [
    "Props.C80_paths_of_groups"
   ],
   "note": ""
  },
  {
   "property": "C81",
   "status": "partial",
   "theorems": [
    "Props.C81_siblings_differ_partial",
    "Props.C81_identities_collide",
    "Props.C81_collision_loses_lines"
   ],
   "note": "holds for siblings; false of the code across parents, witness of a lost line"
  },
  {
   "property": "C82",
   "status": "proved",
   "theorems": [
    "Props.C82_declared_defaults",
    "Props.C82_text_default",
    "Props.C82_set_alone"
   ],
   "note": ""
  },
  {
   "property": "C83",
   "status": "proved",
   "theorems": [
    "Props.C83_dict_default"
   ],
   "note": ""
  },
  {
   "property": "C84",
   "status": "proved",
   "theorems": [
    "Props.C84_pipe",
    "Props.C84_functions_attribute",
    "Props.C84_group_attribute",
    "Props.C84_pipe_in_arguments"
   ],
   "note": ""
  },
  {
   "property": "C78",
   "status": "proved",
   "theorems": [
    "Props.C78_flat_template",
    "Props.C78_object"
   ],
   "note": ""
  },
  {
   "property": "C85",
   "status": "proved",
   "theorems": [
    "Props.C85_nested_groups",
    "Props.C85_line_before_start"
   ],
   "note": ""
  },
  {
   "property": "C86",
   "status": "proved",
   "theorems": [
    "Props.C86_functions_in_order"
   ],
   "note": ""
  },
  {
   "property": "C87",
   "status": "proved",
   "theorems": [
    "Props.C87_nested_template",
    "Props.C87_one_meaning",
    "Props.C87_object"
   ],
   "note": ""
  },
  {
   "property": "C88",
   "status": "proved",
   "theorems": [
    "Props.C88_order_of_tags"
   ],
   "note": ""
  },
  {
   "property": "C89",
   "status": "proved",
   "theorems": [
    "Props.C89_variables",
    "Props.C89_variables_in_results",
    "Props.C89_empty_named_tag_raises"
   ],
   "note": ""
  },
  {
   "property": "C90",
   "status": "partial",
   "theorems": [
    "Props.C90_templates_inside_partial",
    "Props.C90_filters_partial",
    "Props.C90_filtered_out",
    "Props.C90_name",
    "Props.C90_filter_of_inner_name",
    "Props.C90_lost_tags"
   ],
   "note": "inner templates without any tag (plain text) are not covered; the documented filters and deeper templates fail: witnesses"
  },
  {
   "property": "C91",
   "status": "proved",
   "theorems": [
    "Props.C91_text_inputs"
   ],
   "note": ""
  },
  {
   "property": "C92",
   "status": "proved",
   "theorems": [
    "Props.C92_inputs_of_groups"
   ],
   "note": ""
  },
  {
   "property": "C93",
   "status": "proved",
   "theorems": [
    "Props.C93_end_to_end"
   ],
   "note": ""
  },
  {
   "property": "C94",
   "status": "proved",
   "theorems": [
    "Props.C94_dynamic_path",
    "Props.C94_keyed",
    "Props.C94_two_placeholders_lost",
    "Props.C94_two_placeholders_blanks",
    "Props.C94_backslash_changed",
    "Props.C94_number_reused_fails"
   ],
   "note": "at most one placeholder per path item and values without backslashes; outside that the code loses records or changes keys (witness theorems)"
  },
  {
   "property": "C95",
   "status": "proved",
   "theorems": [
    "Props.C95_plain_template"
   ],
   "note": "for every XML parser and writer that read and write such texts; C139 is the same with the modelled ones, without hypotheses about them"
  },
  {
   "property": "C96",
   "status": "partial",
   "theorems": [
    "Props.C96_extend_partial",
    "Props.C96_no_extend",
    "Props.C96_missing_file",
    "Props.C96_tag_after_text_ignored",
    "Props.C96_tag_after_nothing_ignored",
    "Props.C96_lines_after_tag_lost",
    "Props.C96_short_group_tag",
    "Props.C96_only_text_lost"
   ],
   "note": "For every XML parser and writer; C138_extend is the same with the modelled ones. The full statement is false of the code (five witnesses): a template that is only a tag for a plain text becomes a group without lines of its own, the tag after a plain text template or after one of which nothing is chosen is ignored, lines after a tag in a group are lost, tags in g/grp groups are not handled. Proved whenever these cases do not arise."
  },
  {
   "property": "C97",
   "status": "proved",
   "theorems": [
    "Props.C97_endless_extension"
   ],
   "note": "The tags carry no filters and only elements without tags come before them."
  },
  {
   "property": "C98",
   "status": "proved",
   "theorems": [
    "Props.C98_own_outputs",
    "Props.C98_two_unknown_outputs",
    "Props.C98_per_template_mixes"
   ],
   "note": "Group functions such as set with ttp_macro that change variables are excluded (Engine.Quiet)."
  },
  {
   "property": "C99",
   "status": "proved",
   "theorems": [
    "Props.C99_table",
    "Props.C99_builtin",
    "Props.C99_cell_with_heading",
    "Props.C99_two_headings",
    "Props.C99_default_adds_headers"
   ],
   "note": "Cells that contain the name of their column (a port Port9 under Port) make the row disappear, fewer than three headings without columns() cannot be loaded, and a text default of the group adds the key _headers_ to records: witnesses"
  },
  {
   "property": "C100",
   "status": "proved",
   "theorems": [
    "Props.C100_replaceall",
    "Props.C100_replaceall_one"
   ],
   "note": "non-empty old texts, string keys of dictionaries"
  },
  {
   "property": "C101",
   "status": "proved",
   "theorems": [
    "Props.C101_append_prepend",
    "Props.C101_join",
    "Props.C101_global_ignored"
   ],
   "note": "global variables are not used although the code reads them (witness)"
  },
  {
   "property": "C102",
   "status": "proved",
   "theorems": [
    "Props.C102_set",
    "Props.C102_let_copy"
   ],
   "note": ""
  },
  {
   "property": "C103",
   "status": "proved",
   "theorems": [
    "Props.C103_text_checks",
    "Props.C103_others"
   ],
   "note": ""
  },
  {
   "property": "C104",
   "status": "proved",
   "theorems": [
    "Props.C104_lookup",
    "Props.C104_rlookup",
    "Props.C104_gpvlookup",
    "Props.C104_multimatch_repeats"
   ],
   "note": "with multimatch a key can be listed twice (witness); glob patterns without brackets"
  },
  {
   "property": "C105",
   "status": "partial",
   "theorems": [
    "Props.C105_regex_checks_partial",
    "Props.C105_by_name",
    "Props.C105_alternatives",
    "Props.C105_exact"
   ],
   "note": "false of the code for expressions with alternatives: the anchor binds to one alternative only; exact behaviour proved for any number of alternatives (C105_exact)"
  },
  {
   "property": "C106",
   "status": "proved",
   "theorems": [
    "Props.C106_resub",
    "Props.C106_resub_any",
    "Props.C106_resuball",
    "Props.C106_resuball_one",
    "Props.C106_variable_is_literal"
   ],
   "note": "replacement texts without backslash"
  },
  {
   "property": "C107",
   "status": "proved",
   "theorems": [
    "Props.C107_uptime_seconds",
    "Props.C107_uptime_dict",
    "Props.C107_short_units_lose_digits"
   ],
   "note": "units written out, separated by comma and space; the short forms yr and mo take a digit of the next number (witness)"
  },
  {
   "property": "C108",
   "status": "proved",
   "theorems": [
    "Props.C108_paths_read_as_texts",
    "Props.C108_vanished_file",
    "Props.C108_unreadable_file"
   ],
   "note": "templates whose variables are computed from the file name are excluded (NameBlind); equal texts of different files count once if they are given as texts, hence distinct texts"
  },
  {
   "property": "C109",
   "status": "proved",
   "theorems": [
    "Props.C109_inputs_with_urls"
   ],
   "note": "attributes on the tag or loaded from its text"
  },
  {
   "property": "C110",
   "status": "proved",
   "theorems": [
    "Props.C110_hostname",
    "Props.C110_no_prompt",
    "Props.C110_comment_is_prompt",
    "Props.C110_marks_are_letters"
   ],
   "note": "iff with a specification of prompts on lines; two witnesses of wrong names"
  },
  {
   "property": "C111",
   "status": "proved",
   "theorems": [
    "Props.C111_variable_functions",
    "Props.C111_getfilename"
   ],
   "note": ""
  },
  {
   "property": "C112",
   "status": "proved",
   "theorems": [
    "Props.C112_input_functions",
    "Props.C112_macro"
   ],
   "note": ""
  },
  {
   "property": "C113",
   "status": "proved",
   "theorems": [
    "Props.C113_commands",
    "Props.C113_blocks_exist",
    "Props.C113_no_prompt",
    "Props.C113_hostname_not_escaped"
   ],
   "note": "hostname and command as plain text: the compiled expression of a text is the literal text (hypothesis on W.rx)"
  },
  {
   "property": "C114",
   "status": "proved",
   "theorems": [
    "Props.C114_match",
    "Props.C114_group",
    "Props.C114_is_equal",
    "Props.C114_symm",
    "Props.C114_refl"
   ],
   "note": "Floats compare by their text. The equality is specified by an inductive relation of its own, Spec.SameVal."
  },
  {
   "property": "C115",
   "status": "proved",
   "theorems": [
    "Props.C115_outputs_in_order",
    "Props.runOutputsAux_iff"
   ],
   "note": "Conditions are those with a variable name and a value; functions and formatters are arbitrary."
  },
  {
   "property": "C116",
   "status": "proved",
   "theorems": [
    "Props.C116_templates_in_order",
    "Props.C116_add_lookup",
    "Props.C116_input_load",
    "Props.C116_lookup_before_template"
   ],
   "note": "C116_lookup_before_template shows the gap: tables do not reach templates added later."
  },
  {
   "property": "C117",
   "status": "proved",
   "theorems": [
    "Props.C117_group_sformat",
    "Props.C117_match_sformat",
    "Props.C117_numbered"
   ],
   "note": "Fields with attributes, indices, conversions or format specifications are left to a parameter. C117_numbered: errors other than KeyError are not caught."
  },
  {
   "property": "C118",
   "status": "proved",
   "theorems": [
    "Props.C118_tabulate",
    "Props.C118_output_tag",
    "Props.C118_precedence",
    "Props.C118_table_options",
    "Props.C118_attributes",
    "Props.C118_strict_text"
   ],
   "note": "C118_strict_text records a limit: strict=\"False\" on a tag is a text and counts as true."
  },
  {
   "property": "C119",
   "status": "proved",
   "theorems": [
    "Props.C119_file",
    "Props.C119_default_name"
   ],
   "note": "Without file name and output name there is a TypeError (second part of C119_default_name). Workbooks are not modelled."
  },
  {
   "property": "C120",
   "status": "proved",
   "theorems": [
    "Props.C120_print",
    "Props.C120_colours",
    "Props.C120_colour_limits"
   ],
   "note": "C120_colour_limits: colours of data that are no text raise; words with characters of a code break codes; a word containing a later word loses its colour."
  },
  {
   "property": "C121",
   "status": "proved",
   "theorems": [
    "Props.C121_syslog",
    "Props.C121_port",
    "Props.C121_texts"
   ],
   "note": "C121_texts: an interval written on the tag is a text and raises TypeError; iterate=\"False\" counts as true. Pauses and connections are not modelled."
  },
  {
   "property": "C122",
   "status": "proved",
   "theorems": [
    "Props.C122_outputs",
    "Props.C122_same_results"
   ],
   "note": ""
  },
  {
   "property": "C123",
   "status": "proved",
   "theorems": [
    "Props.C123_is_ip_v4",
    "Props.C123_is_ip_v6",
    "Props.C123_is_ip_any",
    "Props.C123_is_ip_not_text"
   ],
   "note": "syntax of version 6 addresses is a parameter"
  },
  {
   "property": "C124",
   "status": "proved",
   "theorems": [
    "Props.C124_cidr_match",
    "Props.C124_not_an_address",
    "Props.C124_bad_prefix"
   ],
   "note": "assumes of version 6 only that addresses have 128 bits and that no version 4 text is one"
  },
  {
   "property": "C125",
   "status": "proved",
   "theorems": [
    "Props.C125_ip_info_address",
    "Props.C125_ip_info_interface",
    "Props.C125_ip_info_other",
    "Props.C125_hosts_negative"
   ],
   "note": "is_private and version 6 are parameters; hosts is -1 for /32"
  },
  {
   "property": "C126",
   "status": "partial",
   "theorems": [
    "Props.C126_to_float_partial",
    "Props.C126_to_float_raises",
    "Props.C126_to_float_numbers",
    "Props.C126_print"
   ],
   "note": "false of the code: a text that is no number raises ValueError and ends parsing (to_int keeps it)"
  },
  {
   "property": "C127",
   "status": "proved",
   "theorems": [
    "Props.C127_macro_results",
    "Props.C127_no_such_macro"
   ],
   "note": "exceptions of macros: C67"
  },
  {
   "property": "C128",
   "status": "partial",
   "theorems": [
    "Props.C128_template_lookup",
    "Props.C128_no_such_template",
    "Props.C128_group_lookup_partial",
    "Props.C128_no_such_group",
    "Props.C128_no_such_table",
    "Props.C128_group_lookup_per_template"
   ],
   "note": "false of the code for group lookups in templates with results=per_template: the loop goes over the keys of the dictionary and raises TypeError"
  },
  {
   "property": "C129",
   "status": "proved",
   "theorems": [
    "Props.C129_record"
   ],
   "note": ""
  },
  {
   "property": "C130",
   "status": "proved",
   "theorems": [
    "Props.C130_text_of_a_line",
    "Props.C130_compiles_iff",
    "Props.C130_ignore_two_arguments",
    "Props.C130_pattern_pasted"
   ],
   "note": "re.compile is modelled for the syntax listed in Py/RegexText; two arguments of ignore and pasted patterns are witnesses of what the code does"
  },
  {
   "property": "C131",
   "status": "proved",
   "theorems": [
    "Props.C131_text_of_headings",
    "Props.C131_text",
    "Props.C131_compiles_iff"
   ],
   "note": "headings with > inside are refused by the model"
  },
  {
   "property": "C132",
   "status": "proved",
   "theorems": [
    "Props.C132_word",
    "Props.C132_digit",
    "Props.C132_line",
    "Props.C132_phrase",
    "Props.C132_row",
    "Props.C132_orphrase",
    "Props.C132_ip",
    "Props.C132_prefix",
    "Props.C132_ipv6",
    "Props.C132_prefixv6",
    "Props.C132_mac",
    "Props.C132_every_address",
    "Props.C132_not_only_addresses",
    "Props.C132_mac_mixed",
    "Props.C132_ipv6_limits",
    "Props.C132_one_line",
    "Props.C132_escaped"
   ],
   "note": "ASCII meaning of \\d, \\s"
  },
  {
   "property": "C133",
   "status": "proved",
   "theorems": [
    "Props.C133_json",
    "Props.C133_equal",
    "Props.C133_defined",
    "Props.C133_ascii",
    "Props.C133_different",
    "Props.C133_compact",
    "Props.C133_number_keys",
    "Props.C133_json_tag"
   ],
   "note": "C133_number_keys records the limit: numbers as keys become texts."
  },
  {
   "property": "C134",
   "status": "proved",
   "theorems": [
    "Props.C134_unambiguous",
    "Props.C134_json",
    "Props.C134_last_value"
   ],
   "note": "NaN, Infinity and other extensions of Python's reader are part of the grammar in Spec/Json."
  },
  {
   "property": "C135",
   "status": "proved",
   "theorems": [
    "Props.C135_nothing",
    "Props.C135_default",
    "Props.C135_unknown",
    "Props.C135_text",
    "Props.C135_json",
    "Props.C135_json_round_trip",
    "Props.C135_csv",
    "Props.C135_python_yaml",
    "Props.C135_ini",
    "Props.C135_missing_file"
   ],
   "note": "C135_missing_file records a limit: a missing include file is no error, its path is read as data. exec of Python text, YAML and configparser are parameters."
  },
  {
   "property": "C136",
   "status": "proved",
   "theorems": [
    "Props.C136_macro",
    "Props.C136_is_equal",
    "Props.C136_traverse",
    "Props.C136_dict_to_list"
   ],
   "note": "The change of the results in place is C55."
  },
  {
   "property": "C137",
   "status": "proved",
   "theorems": [
    "Props.C137_parser",
    "Props.C137_no_tree",
    "Props.C137_unambiguous",
    "Props.C137_proper"
   ],
   "note": "The XML parser (expat through xml.etree) is modelled for the described subset and was compared with Python on 18000 random texts."
  },
  {
   "property": "C138",
   "status": "proved",
   "theorems": [
    "Props.C138_round_trip",
    "Props.C138_read_write_read",
    "Props.C138_extend",
    "Props.C138_no_extend",
    "Props.C138_return_lost"
   ],
   "note": "A carriage return in a text (written as a reference) becomes a line end: witness."
  },
  {
   "property": "C139",
   "status": "proved",
   "theorems": [
    "Props.C139_plain",
    "Props.C139_escaped",
    "Props.C139_plain_template"
   ],
   "note": "No XML parser parameter is left: C95 with the modelled parser."
  },
  {
   "property": "C140",
   "status": "proved",
   "theorems": [
    "Props.C140_text_loads",
    "Props.C140_text_error"
   ],
   "note": ""
  },
  {
   "property": "C141",
   "status": "proved",
   "theorems": [
    "Props.C141_templates_inside",
    "Props.C141_as_written",
    "Props.C141_lines_lost",
    "Props.C141_shown"
   ],
   "note": "The bytes are modelled by the text they encode; only how Python shows them (for templates without elements) depends on UTF-8. The depth of recursion is a bound: the theorem is for all bounds that are large enough."
  },
  {
   "property": "C142",
   "status": "proved",
   "theorems": [
    "Props.C142_text_after_template"
   ],
   "note": "A defect of the code, stated as what it does. In CPython the error is RecursionError or MemoryError (back slashes double at each level); the model has a bound and gives runtimeError at it."
  },
  {
   "property": "C143",
   "status": "proved",
   "theorems": [
    "Props.C143_arguments",
    "Props.C143_unambiguous",
    "Props.C143_pipe",
    "Props.C143_not_loaded",
    "Props.C143_wrong_order",
    "Props.C143_quotes_optional",
    "Props.C143_constants",
    "Props.C143_headings",
    "Props.C143_backslash",
    "Props.C143_taken"
   ],
   "note": "Floats, other literals, operators, calls, tuples, dictionaries, octal/hex/unicode escapes and non-ASCII names are outside of the language: what Python does with them is the parameter `other`. C143_backslash and C143_taken show surprises (a backspace for \\b, names like log and re are objects of the module)."
  },
  {
   "property": "C144",
   "status": "proved",
   "theorems": [
    "Props.C144_lookup_tables"
   ],
   "note": "Geoip2 databases are not modelled."
  },
  {
   "property": "C145",
   "status": "proved",
   "theorems": [
    "Props.C145_input_tags",
    "Props.C145_text_tag_loads",
    "Props.C145_second_functions_lost",
    "Props.C145_data_doubled",
    "Props.C145_name_in_text",
    "Props.C145_commands_as_list"
   ],
   "note": "The code differs from what one expects in four places, each with a witness: functions of a second tag are lost; a second tag without data has the urls of the first read again, so every file is parsed twice; a name in the text counts for groups only if load is written out; commands to extract given as a list are ignored. Assumed: load is written in lower case and does not occur in the text."
  },
  {
   "property": "C146",
   "status": "proved",
   "theorems": [
    "Props.C146_template_lookup",
    "Props.C146_group_lookup",
    "Props.C146_no_table"
   ],
   "note": "For groups without outputs of their own. Results of the template are per input."
  },
  {
   "property": "C147",
   "status": "proved",
   "theorems": [
    "Props.C147_group_to_ip",
    "Props.C147_missing"
   ],
   "note": "Reading of addresses of version 6 is a parameter."
  },
  {
   "property": "C148",
   "status": "proved",
   "theorems": [
    "Props.C148_cerberus",
    "Props.C148_validate",
    "Props.C148_no_schema"
   ],
   "note": "The Cerberus library is a parameter of the model."
  },
  {
   "property": "C149",
   "status": "proved",
   "theorems": [
    "Props.C149_reports",
    "Props.C149_no_schema",
    "Props.C149_changes_results"
   ],
   "note": "C149_changes_results shows two surprises: with info the results themselves get a field inf, and results that are a text are lost."
  },
  {
   "property": "C150",
   "status": "proved",
   "theorems": [
    "Props.C150_deepdiff",
    "Props.C150_other_sources",
    "Props.C150_errors"
   ],
   "note": "C150_errors: input_after without input_before and a missing template end with UnboundLocalError. The DeepDiff library is a parameter."
  },
  {
   "property": "C151",
   "status": "proved",
   "theorems": [
    "Props.C151_rich_template",
    "Props.C151_object",
    "Props.C151_one_meaning",
    "Props.C151_example",
    "Props.C151_variables_example",
    "Props.C151_ignore_example",
    "Props.C151_rejected_end"
   ],
   "note": "expressions are those without named groups, lookahead and anchors that match no line break; end lines without functions (with functions the result depends on the text behind: witness C151_rejected_end); functions that add fields or change variables are not covered"
  },
  {
   "property": "C152",
   "status": "proved",
   "theorems": [
    "Props.C152_excel",
    "Props.C152_new_book",
    "Props.C152_titles_once",
    "Props.C152_update_loses",
    "Props.C152_columns",
    "Props.C152_second_run",
    "Props.C152_no_path",
    "Props.C152_required",
    "Props.C152_cells"
   ],
   "note": "proved for file names without variables; what does not hold: titles are used up by the first run, with variables in the file name `update` loses the old workbook, added rows do not follow the columns of the sheet, a tab without path fails"
  },
  {
   "property": "C153",
   "status": "partial",
   "theorems": [
    "Props.C153_installed_partial",
    "Props.C153_new_name_partial",
    "Props.C153_own_name",
    "Props.C153_overwritten",
    "Props.C153_example",
    "Props.ttpFiles_clean"
   ],
   "note": "False of the code for names of TTP: a function added under such a name is silently replaced by the function of TTP when another function of the same file is used for the first time (C153_overwritten); C153_own_name says exactly when. Proved for all other names."
  },
  {
   "property": "C154",
   "status": "partial",
   "theorems": [
    "Props.C154_sees",
    "Props.C154_own_partial",
    "Props.C154_first_call_partial",
    "Props.C154_other_object"
   ],
   "note": "False of the code with two objects: the last object that imports a file gets its data used by all (C154_other_object: the second parse() of the first object looks up in the tables of the second). C154_sees says exactly whose data a function sees; proved for a process in which no other object uses the file."
  },
  {
   "property": "C155",
   "status": "proved",
   "theorems": [
    "Props.C155_list",
    "Props.C155_flat_list",
    "Props.C155_dictionary",
    "Props.C155_without",
    "Props.C155_other",
    "Props.C155_condition",
    "Props.C155_example_list",
    "Props.C155_example_dictionary",
    "Props.C155_example_flat",
    "Props.C155_example_raw"
   ],
   "note": "names of attributes in lower case where they are options of outputs"
  },
  {
   "property": "C156",
   "status": "proved",
   "theorems": [
    "Props.C156_plain",
    "Props.C156_output",
    "Props.C156_no_data"
   ],
   "note": "`parse` in one process"
  },
  {
   "property": "C157",
   "status": "proved",
   "theorems": [
    "Props.C157_nested_rich_template",
    "Props.C157_object",
    "Props.C157_one_meaning",
    "Props.C157_example"
   ],
   "note": "groups with `_end_` lines, with defaults in start lines and without lines of their own are not covered here (flat groups with them: C151); values are no dictionaries and variable names are no group names"
  },
  {
   "property": "C158",
   "status": "partial",
   "theorems": [
    "Props.C158_servers_partial",
    "Props.C158_leak",
    "Props.DnsEx.C158_example"
   ],
   "note": "Missing because false of the code: a lookup without servers asks those of the last lookup that named some, in whatever template and object, until one gets no answer in time (C158_leak, proved for all histories). What the network answers is part of each call."
  },
  {
   "property": "C159",
   "status": "proved",
   "theorems": [
    "Props.C159_lookup",
    "Props.C159_raises",
    "Props.DnsEx.C159_example"
   ],
   "note": "`rdns` of a text that is no address raises, `dns` of a name that does not exist does not."
  },
  {
   "property": "C160",
   "status": "proved",
   "theorems": [
    "Props.C160_lookup",
    "Props.C160_no_library",
    "Props.GeoEx.C160_example",
    "Props.GeoEx.C160_twice"
   ],
   "note": "The name must have letters of the same size as in the tag, although the documentation says that size does not matter; a kind named twice loses the first database (C160_twice)."
  },
  {
   "property": "C161",
   "status": "proved",
   "theorems": [
    "Props.C161_get_template",
    "Props.C161_several",
    "Props.C161_inside"
   ],
   "note": "Texts with carriage returns excluded (C138)."
  },
  {
   "property": "C162",
   "status": "proved",
   "theorems": [
    "Props.C162_command_line",
    "Props.C162_bad_vars",
    "Props.C162_apostrophe",
    "Props.C162_no_template",
    "Props.C162_other_letters",
    "Props.C162_one_and_multi",
    "Props.C162_named_template_no_data"
   ],
   "note": "Runs in one process (--one, or fewer than two data items). Witnesses: an apostrophe inside a value breaks -v; no -t is UnboundLocalError; `-o JSON` is KeyError; -d gives nothing to templates with names."
  },
  {
   "property": "C163",
   "status": "proved",
   "theorems": [
    "Props.C163_arguments"
   ],
   "note": "witness: name with equal([\"a\"]) raises TypeError because a list cannot be looked up in the template variables"
  },
  {
   "property": "C164",
   "status": "proved",
   "theorems": [
    "Props.C164_expressions"
   ],
   "note": "patterns with arguments: WORD(\"abc\") asks for abc. An invalid expression raises when it is taken up, in the code when the whole line is compiled"
  },
  {
   "property": "C165",
   "status": "proved",
   "theorems": [
    "Props.C165_chain",
    "Props.C165_unknown",
    "Props.C165_forever"
   ],
   "note": "chains inside chains are covered one level at a time: the inner one is replaced first; the depth of Python's stack is a constant of the model"
  },
  {
   "property": "C166",
   "status": "proved",
   "theorems": [
    "Props.C166_list",
    "Props.C166_bare_list",
    "Props.C166_dict",
    "Props.C166_unknown_scope",
    "Props.C166_unchecked",
    "Props.C166_no_model"
   ],
   "note": "yangson and the texts of tracebacks are parameters; to_xml needs a Python with xml.etree.cElementTree"
  },
  {
   "property": "C167",
   "status": "partial",
   "theorems": [
    "Props.C167_library_partial",
    "Props.C167_again",
    "Props.C167_missing_partial",
    "Props.C167_stale"
   ],
   "note": "proved for the first call of a process and for calls with the same modules. False for calls with different directories: modmap and submodmap live as long as the process, so the second library lists the modules of the first directory too, and features of submodules pile up (Props.C167_stale)"
  },
  {
   "property": "C168",
   "status": "proved",
   "theorems": [
    "Props.C168_diagram",
    "Props.C168_no_diagram"
   ],
   "note": "The library N2G is a parameter."
  },
  {
   "property": "C169",
   "status": "proved",
   "theorems": [
    "Props.C169_placed_template",
    "Props.C169_object",
    "Props.C169_of_list",
    "Props.C169_one_meaning",
    "Props.C169_example"
   ],
   "note": "Null items and names that begin with / are outside; with the option dynamic_path_key_to_int a path with no asterisk at its end has no names of digits (C02)."
  },
  {
   "property": "C170",
   "status": "proved",
   "theorems": [
    "Props.C170_group_functions",
    "Props.C170_object",
    "Props.C170_contains",
    "Props.C170_example"
   ],
   "note": "Functions that change the parser's state or variables (record, set, itemize, ...) are outside of it; they are C59, C104 and others."
  },
  {
   "property": "C171",
   "status": "proved",
   "theorems": [
    "Props.C171_checks",
    "Props.C171_object",
    "Props.C171_example"
   ],
   "note": "Defaults of the names of contains and containsall are texts, and so is the value compared with; contains_val is C74."
  },
  {
   "property": "C172",
   "status": "proved",
   "theorems": [
    "Props.C172_group_default",
    "Props.C172_object",
    "Props.C172_defaults"
   ],
   "note": "The attribute stands right after the name; a default that is a structure (a template variable with a dictionary) is C83."
  }
 ]
}