'Props.C01_list_path_accumulates': [propext, Quot.sound]
'Props.C02_plain_path': [propext, Quot.sound]
'Props.C03_double_star_first_wins': [propext, Quot.sound]
'Props.C04_other_paths_untouched': [propext, Quot.sound]
'Props.C05_null_path_key_leaks': [propext]
'Props.C05_null_last_merges_partial': [propext, Quot.sound]
'Props.C05_null_middle_skipped_partial': [propext, Quot.sound]
'Props.C06_numeric_key_second_record_loses_all': [propext]
'Props.C06_loses_everything': [propext, Quot.sound]
'Props.C06_no_loss_partial': [propext, Classical.choice, Quot.sound]
'Props.C07_child_goes_to_last_parent': [propext, Quot.sound]
'Props.C85_nested_groups': [propext, Classical.choice, Quot.sound]
'Props.C85_line_before_start': [propext, Classical.choice, Quot.sound]
'Props.C08_late_match_merges_into_last': [propext, Quot.sound]
'Props.C08_late_match_merges_into_dict': [propext, Quot.sound]
'Props.C08_late_match_no_error': [propext, Quot.sound]
'Props.C09_blocked_path_changes_nothing': [propext, Quot.sound]
'Props.C10_with_ends': [propext, Quot.sound]
'Props.C10_with_functions': [propext, Classical.choice, Quot.sound]
'Props.C10_flat_group': [propext, Quot.sound]
'Props.C10_flat_group_list': [propext, Quot.sound]
'Props.C11_first_value_is_kept': [propext, Quot.sound]
'Props.C12_defaults_fill_the_rest': [propext, Quot.sound]
'Props.C12_start_takes_group_defaults': [propext, Quot.sound]
'Props.C13_end_silences_group': [propext, Classical.choice, Quot.sound]
'Props.C13_ended_group_is_silent': [propext, Classical.choice, Quot.sound]
'Props.C14_rejected_start_drops_lines': [propext, Classical.choice, Quot.sound]
'Props.C15_joined_in_order': [propext, Classical.choice, Quot.sound]
'Props.C15_lists_concatenated': [propext, Quot.sound]
'Props.C16_child_of_ended_is_silent_partial': [propext, Quot.sound]
'Props.C16_grandchild_leaks': [propext, Quot.sound]
'Props.C17_choice': [propext, Classical.choice, Quot.sound]
'Props.C17_current_group': [propext, Quot.sound]
'Props.C17_preference': [propext, Classical.choice, Quot.sound]
'Props.C17_only_the_chosen_counts': [propext, Quot.sound]
'Props.C18_rejected_record_leaves_no_trace': [propext, Quot.sound]
'Props.C18_rejected_late_match_leaves_no_trace': [propext, Quot.sound]
'Props.C19_named_variables_saved': [propext, Quot.sound]
'Props.C19_nothing_without_matches': [propext, Quot.sound]
'Props.C25_rendered_line_parses_back': [propext, Classical.choice, Quot.sound]
'Props.C25_matches_are_renderings': [propext, Classical.choice, Quot.sound]
'Props.C26_C27_literal_piece': [propext, Classical.choice, Quot.sound]
'Props.C26_C27_literal_line': [propext, Classical.choice, Quot.sound]
'Props.C28_whole_lines': [propext, Classical.choice, Quot.sound]
'Props.C29_default_pattern': [propext, Classical.choice, Quot.sound]
'Props.C30_capture_names': [propext, Quot.sound]
'Props.C63_names_clash': []
'Props.C63_clash_not_loaded': [propext]
'Props.C63_identifiers_kept_apart_partial': [propext]
'Props.C64_line_action': [propext, Classical.choice, Quot.sound]
'Props.C64_variable_action': [propext, Quot.sound]
'Props.C64_join_lost': [propext]
'Props.C65_line_classes': [propext, Classical.choice, Quot.sound]
'Props.C20_positions_ascending': [propext, Classical.choice, Quot.sound]
'Props.C20_same_position_template_order': [propext, Classical.choice, Quot.sound]
'Props.C21_first_rejection': [propext, Quot.sound]
'Props.C21_all_pass': [propext, Quot.sound]
'Props.C21_line_rejected': [propext, Quot.sound]
'Props.C21_rejected_match': [propext]
'Props.C22_string_invariant': [propext, Classical.choice, Quot.sound]
'Props.C22_no_fabricated_values': [propext, Classical.choice, Quot.sound]
'Props.C23_child_after_parent_start': [propext, Classical.choice, Quot.sound]
'Props.C23_child_before_parent_end': [propext, Classical.choice, Quot.sound]
'Props.C23_end_ineffective_after_preamble': [propext]
'Props.C23_child_of_absent_parent': [propext]
'Props.C24_defaults_once': [propext, Classical.choice, Quot.sound]
'Props.C24_nothing': [propext, Quot.sound]
'Props.C24_defaults_record': [propext, Quot.sound]
'Props.C31_add_input_distinct': [propext, Classical.choice, Quot.sound]
'Props.C31_no_data_no_input': [propext, Classical.choice, Quot.sound]
'Props.C32_set_input': [propext, Quot.sound]
'Props.C32_set_is_clear_add': [propext]
'Props.C33_per_input_entries': [propext, Quot.sound]
'Props.C33_parse_one_per_input': [propext, Quot.sound]
'Props.C33_upper_case_method_loses_results': [propext, Quot.sound]
'Props.C34_per_template_combined': [propext, Quot.sound]
'Props.C34_second_parse_replaces': [propext, Quot.sound]
'Props.C39_mode': [propext, Classical.choice, Quot.sound]
'Props.C39_count': [propext, Quot.sound]
'Props.C40_list': [propext, Quot.sound]
'Props.C40_flat_list': [propext, Quot.sound]
'Props.C40_dictionary': [propext, Quot.sound]
'Props.C41_add_vars': [propext, Quot.sound]
'Props.C42_clear_result': [propext, Quot.sound]
'Props.C42_parse_after_clear_partial': [propext, Quot.sound]
'Props.C42_globals_survive_clear': [propext, Quot.sound]
'Props.C43_no_leak': [propext, Quot.sound]
'Props.C44_routing': [propext, Classical.choice, Quot.sound]
'Props.C44_groups_run': [propext, Classical.choice, Quot.sound]
'Props.C44_more_data_partial': [propext, Classical.choice, Quot.sound]
'Props.C44_order_after_second_call': [propext, Classical.choice, Quot.sound]
'Props.C47_anonymous': [propext, Quot.sound]
'Props.C47_anonymous_only': [propext]
'Props.C47_single_record_not_a_list': [propext]
'Props.C62_condition_fails': [propext, Classical.choice, Quot.sound]
'Props.C62_output': [propext, Classical.choice, Quot.sound]
'Props.C35_multi_same_entries': [propext, Classical.choice, Quot.sound]
'Props.C35_multi_always_finishes': [propext, Classical.choice, Quot.sound]
'Props.C36_single_item_partial': [propext, Classical.choice, Quot.sound]
'Props.C36_only_one_item_survives': [propext, Classical.choice, Quot.sound]
'Props.C36_multi_differs': [propext, Classical.choice, Quot.sound]
'Props.C37_worker_functions': [propext, Quot.sound]
'Props.C37_custom_found': [propext, Quot.sound]
'Props.C37_other_scopes_partial': [propext, Quot.sound]
'Props.C37_custom_hides_builtins': [propext, Quot.sound]
'Props.C38_always_finishes_partial': [propext, Classical.choice, Quot.sound]
'Props.C38_raising_item_hangs': [propext, Classical.choice, Quot.sound]
'Props.C38_runs_bounded': [propext, Quot.sound]
'Props.C45_exact': [propext, Classical.choice, Quot.sound]
'Props.C45_known_resolved_partial': [propext, Classical.choice, Quot.sound]
'Props.C45_unknown_leaves_name': [propext, Classical.choice, Quot.sound]
'Props.C46_every_start_own_table_partial': [propext, Quot.sound]
'Props.C46_used_iff': [propext, Quot.sound]
'Props.C46_used_from_third_start': [propext]
'Props.C46_other_object_fails': []
'Props.C48_unrange_expands': [propext, Classical.choice, Quot.sound]
'Props.C48_unrange_no_range': [propext]
'Props.C48_other_ranges': [propext]
'Props.C49_to_cidr_counts_ones': [propext, Classical.choice, Quot.sound]
'Props.C49_to_cidr_of_netmask': [propext, Classical.choice, Quot.sound]
'Props.C49_to_cidr_other': [propext]
'Props.C50_mac_eui': [propext, Classical.choice, Quot.sound]
'Props.C50_mac_eui_other': [propext, Classical.choice, Quot.sound]
'Props.C50_mac_eui_idempotent': [propext, Classical.choice, Quot.sound]
'Props.C51_item_list': [propext, Classical.choice, Quot.sound]
'Props.C51_item_string': [propext, Classical.choice, Quot.sound]
'Props.C52_truncate': [propext, Classical.choice, Quot.sound]
'Props.C52_truncate_zero': [propext, Classical.choice, Quot.sound]
'Props.C52_truncate_negative': [propext, Classical.choice, Quot.sound]
'Props.C52_truncate_twice_calls': [propext, Classical.choice, Quot.sound]
'Props.C59_count_counts': [propext, Quot.sound]
'Props.C59_count_accepts': [propext, Quot.sound]
'Props.C60_comparisons': [propext, Classical.choice, Quot.sound]
'Props.C60_isdigit_notdigit': [propext, Quot.sound]
'Props.C61_cidr_match_interface': [propext, Classical.choice, Quot.sound]
'Props.C61_cidr_match_address': [propext, Classical.choice, Quot.sound]
'Props.C61_cidr_match_other': [propext]
'Props.C66_checks_keep_variables': [propext]
'Props.C67_macro_errors_surface_partial': [propext]
'Props.C67_macro_keyError_hidden': [propext]
'Props.C53_contains': [propext, Quot.sound]
'Props.C53_containsall': [propext, Quot.sound]
'Props.C53_exclude': [propext, Quot.sound]
'Props.C53_excludeall': [propext, Quot.sound]
'Props.C54_expand': [propext, Classical.choice, Quot.sound]
'Props.C54_expand_conflicts': [propext]
'Props.C68_contains_any_partial': [propext, Quot.sound]
'Props.C68_contains_order_matters': [propext]
'Props.C68_exclude_ignores_defaulted': [propext]
'Props.C69_record_then_set': [propext, Quot.sound]
'Props.C69_record_absent': [propext]
'Props.C69_set_unknown': [propext, Quot.sound]
'Props.C70_del': [propext, Quot.sound]
'Props.C71_to_int': [propext, Quot.sound]
'Props.C71_to_int_all': [propext, Quot.sound]
'Props.C71_to_int_twice_truncates': [propext]
'Props.C72_items2dict': [propext, Quot.sound]
'Props.C72_items2dict_same': [propext]
'Props.C73_group_lookup': [propext, Classical.choice, Quot.sound]
'Props.C73_lookup_non_table': [propext]
'Props.C74_value_checks': [propext, Quot.sound]
'Props.C75_itemize': [propext, Classical.choice, Quot.sound]
'Props.C75_placeholders': [propext, Quot.sound]
'Props.C75_itemize_path': [propext, Classical.choice, Quot.sound]
'Props.C76_macro_sequence': [propext]
'Props.C76_one_macro': [propext, Classical.choice, Quot.sound]
'Props.C76_macro_one': [propext]
'Props.C55_dict_to_list': [propext, Quot.sound]
'Props.C55_of_list': [propext]
'Props.C55_unchanged_partial': [propext]
'Props.C55_other_shapes': [propext]
'Props.C55_changes_the_results': [propext, Quot.sound]
'Props.C56_table': [propext, Classical.choice, Quot.sound]
'Props.C56_dict_is_list': [propext]
'Props.C56_other': [propext]
'Props.C57_csv_round_trip': [propext, Quot.sound]
'Props.C57_string_cells': [propext]
'Props.C57_quotes_not_escaped': [propext]
'Props.C58_load_csv': [propext, Classical.choice, Quot.sound]
'Props.C58_key_column': [propext]
'Props.C58_csv_into_lookup': [propext, Classical.choice, Quot.sound]
'Props.C58_ragged_rows': [propext]
'Props.C58_load_csv_text': [propext, Classical.choice, Quot.sound]
'Props.C58_key_column_text': [propext, Quot.sound]
'Props.C58_line_break_lost': [propext]
'Props.C77_traverse': [propext]
'Props.C77_traverse_strict': [propext, Classical.choice, Quot.sound]
'Props.C79_meaningless_lines': [propext, Quot.sound]
'Props.C79_no_text_raises': [propext, Quot.sound]
'Props.C79_no_tail_raises': [propext, Quot.sound]
'Props.C80_paths_of_groups': [propext, Classical.choice, Quot.sound]
'Props.C81_siblings_differ_partial': [propext, Classical.choice, Quot.sound]
'Props.C81_identities_collide': [propext, Classical.choice, Quot.sound]
'Props.C81_collision_loses_lines': [propext, Quot.sound]
'Props.C82_declared_defaults': [propext, Classical.choice, Quot.sound]
'Props.C82_text_default': [propext, Classical.choice, Quot.sound]
'Props.C82_set_alone': [propext, Quot.sound]
'Props.C83_dict_default': [propext, Classical.choice, Quot.sound]
'Props.C84_pipe': [propext, Quot.sound]
'Props.C84_functions_attribute': [propext, Classical.choice, Quot.sound]
'Props.C84_group_attribute': [propext, Quot.sound]
'Props.C84_pipe_in_arguments': [propext]
'Props.C78_flat_template': [propext, Classical.choice, Quot.sound]
'Props.C78_object': [propext, Classical.choice, Quot.sound]
'Props.C86_functions_in_order': [propext, Quot.sound]
'Props.C87_nested_template': [propext, Classical.choice, Quot.sound]
'Props.C87_one_meaning': [propext, Classical.choice, Quot.sound]
'Props.C87_object': [propext, Classical.choice, Quot.sound]
'Props.C88_order_of_tags': [propext, Quot.sound]
'Props.C89_variables': [propext, Quot.sound]
'Props.C89_variables_in_results': [propext, Quot.sound]
'Props.C89_empty_named_tag_raises': [propext]
'Props.C90_templates_inside_partial': [propext, Quot.sound]
'Props.C90_filters_partial': [propext, Quot.sound]
'Props.C90_filtered_out': [propext, Quot.sound]
'Props.C90_name': [propext, Quot.sound]
'Props.C90_filter_of_inner_name': [propext]
'Props.C90_lost_tags': [propext]
'Props.C91_text_inputs': [propext, Classical.choice, Quot.sound]
'Props.C92_inputs_of_groups': [propext, Classical.choice, Quot.sound]
'Props.C93_end_to_end': [propext, Classical.choice, Quot.sound]
'Props.C94_dynamic_path': [propext, Classical.choice, Quot.sound]
'Props.C94_keyed': [propext, Classical.choice, Quot.sound]
'Props.C94_two_placeholders_lost': [propext, Quot.sound]
'Props.C94_two_placeholders_blanks': [propext, Quot.sound]
'Props.C94_backslash_changed': [propext, Quot.sound]
'Props.C94_number_reused_fails': [propext, Quot.sound]
'Props.C95_plain_template': [propext, Classical.choice, Quot.sound]
'Props.C96_extend_partial': [propext, Quot.sound]
'Props.C96_no_extend': [propext, Quot.sound]
'Props.C96_missing_file': [propext, Quot.sound]
'Props.C96_tag_after_text_ignored': [propext, Quot.sound]
'Props.C96_tag_after_nothing_ignored': [propext]
'Props.C96_lines_after_tag_lost': [propext]
'Props.C96_short_group_tag': [propext]
'Props.C96_only_text_lost': [propext]
'Props.C97_endless_extension': [propext, Quot.sound]
'Props.C98_own_outputs': [propext, Quot.sound]
'Props.C98_two_unknown_outputs': [propext, Quot.sound]
'Props.C98_per_template_mixes': [propext, Quot.sound]
'Props.C99_table': [propext, Classical.choice, Quot.sound]
'Props.C99_builtin': [propext, Quot.sound]
'Props.C99_cell_with_heading': [propext, Quot.sound]
'Props.C99_two_headings': [propext]
'Props.C99_default_adds_headers': [propext]
'Props.C100_replaceall': [propext, Quot.sound]
'Props.C100_replaceall_one': [propext, Quot.sound]
'Props.C101_append_prepend': [propext]
'Props.C101_join': [propext, Quot.sound]
'Props.C101_global_ignored': [propext]
'Props.C102_set': [propext]
'Props.C102_let_copy': [propext]
'Props.C103_text_checks': [propext, Quot.sound]
'Props.C103_others': [propext]
'Props.C104_lookup': [propext, Classical.choice, Quot.sound]
'Props.C104_rlookup': [propext, Classical.choice, Quot.sound]
'Props.C104_gpvlookup': [propext, Classical.choice, Quot.sound]
'Props.C104_multimatch_repeats': [propext]
'Props.C105_regex_checks_partial': [propext, Quot.sound]
'Props.C105_by_name': [propext]
'Props.C105_alternatives': [propext, Quot.sound]
'Props.C105_exact': [propext, Quot.sound]
'Props.C106_resub': [propext, Classical.choice, Quot.sound]
'Props.C106_resub_any': [propext, Classical.choice, Quot.sound]
'Props.C106_resuball': [propext, Classical.choice, Quot.sound]
'Props.C106_resuball_one': [propext, Classical.choice, Quot.sound]
'Props.C106_variable_is_literal': [propext, Classical.choice, Quot.sound]
'Props.C107_uptime_seconds': [propext, Classical.choice, Quot.sound]
'Props.C107_uptime_dict': [propext, Classical.choice, Quot.sound]
'Props.C107_short_units_lose_digits': [propext]
'Props.C108_paths_read_as_texts': [propext, Classical.choice, Quot.sound]
'Props.C108_vanished_file': [propext, Quot.sound]
'Props.C108_unreadable_file': [propext, Classical.choice, Quot.sound]
'Props.C109_inputs_with_urls': [propext, Classical.choice, Quot.sound]
'Props.C110_hostname': [propext, Classical.choice, Quot.sound]
'Props.C110_no_prompt': [propext, Classical.choice, Quot.sound]
'Props.C110_comment_is_prompt': [propext]
'Props.C110_marks_are_letters': [propext]
'Props.C111_variable_functions': [propext, Quot.sound]
'Props.C111_getfilename': [propext]
'Props.C112_input_functions': [propext, Quot.sound]
'Props.C112_macro': [propext]
'Props.C113_commands': [propext, Classical.choice, Quot.sound]
'Props.C113_blocks_exist': [propext, Classical.choice, Quot.sound]
'Props.C113_no_prompt': [propext, Classical.choice, Quot.sound]
'Props.C113_hostname_not_escaped': [propext]
'Props.C114_match': [propext, Classical.choice, Quot.sound]
'Props.C114_group': [propext, Classical.choice, Quot.sound]
'Props.C114_is_equal': [propext, Classical.choice, Quot.sound]
'Props.C114_symm': [propext]
'Props.C114_refl': [propext, Quot.sound]
'Props.C115_outputs_in_order': [propext, Classical.choice, Quot.sound]
'Props.runOutputsAux_iff': [propext, Classical.choice, Quot.sound]
'Props.C116_templates_in_order': [propext]
'Props.C116_add_lookup': [propext, Quot.sound]
'Props.C116_input_load': [propext, Quot.sound]
'Props.C116_lookup_before_template': [propext, Quot.sound]
'Props.C117_group_sformat': [propext, Classical.choice, Quot.sound]
'Props.C117_match_sformat': [propext, Quot.sound]
'Props.C117_numbered': [propext, Quot.sound]
'Props.C118_tabulate': [propext, Quot.sound]
'Props.C118_output_tag': [propext, Classical.choice, Quot.sound]
'Props.C118_precedence': [propext, Quot.sound]
'Props.C118_table_options': [propext, Quot.sound]
'Props.C118_attributes': [propext, Quot.sound]
'Props.C118_strict_text': [propext, Quot.sound]
'Props.C119_file': [propext, Classical.choice, Quot.sound]
'Props.C119_default_name': [propext, Quot.sound]
'Props.C120_print': [propext, Quot.sound]
'Props.C120_colours': [propext, Classical.choice, Quot.sound]
'Props.C120_colour_limits': [propext, Quot.sound]
'Props.C121_syslog': [propext, Classical.choice, Quot.sound]
'Props.C121_port': [propext, Quot.sound]
'Props.C121_texts': [propext]
'Props.C122_outputs': [propext, Classical.choice, Quot.sound]
'Props.C122_same_results': [propext, Classical.choice, Quot.sound]
'Props.C123_is_ip_v4': [propext, Classical.choice, Quot.sound]
'Props.C123_is_ip_v6': [propext, Quot.sound]
'Props.C123_is_ip_any': [propext, Classical.choice, Quot.sound]
'Props.C123_is_ip_not_text': [propext]
'Props.C124_cidr_match': [propext, Classical.choice, Quot.sound]
'Props.C124_not_an_address': [propext, Classical.choice, Quot.sound]
'Props.C124_bad_prefix': [propext, Classical.choice, Quot.sound]
'Props.C125_ip_info_address': [propext, Classical.choice, Quot.sound]
'Props.C125_ip_info_interface': [propext, Classical.choice, Quot.sound]
'Props.C125_ip_info_other': [propext, Classical.choice, Quot.sound]
'Props.C125_hosts_negative': [propext, Classical.choice, Quot.sound]
'Props.C126_to_float_partial': [propext]
'Props.C126_to_float_raises': [propext]
'Props.C126_to_float_numbers': [propext]
'Props.C126_print': [propext]
'Props.C127_macro_results': [propext]
'Props.C127_no_such_macro': [propext]
'Props.C128_template_lookup': [propext, Classical.choice, Quot.sound]
'Props.C128_no_such_template': [propext, Classical.choice, Quot.sound]
'Props.C128_group_lookup_partial': [propext, Classical.choice, Quot.sound]
'Props.C128_no_such_group': [propext, Classical.choice, Quot.sound]
'Props.C128_no_such_table': [propext, Classical.choice, Quot.sound]
'Props.C128_group_lookup_per_template': [propext, Classical.choice, Quot.sound]
'Props.C129_record': [propext, Quot.sound]
'Props.C130_text_of_a_line': [propext, Classical.choice, Quot.sound]
'Props.C130_compiles_iff': [propext, Classical.choice, Quot.sound]
'Props.C130_ignore_two_arguments': [propext, Quot.sound]
'Props.C130_pattern_pasted': [propext, Quot.sound]
'Props.C131_text_of_headings': [propext, Classical.choice, Quot.sound]
'Props.C131_text': [propext, Quot.sound]
'Props.C131_compiles_iff': [propext, Classical.choice, Quot.sound]
'Props.C132_word': [propext, Classical.choice, Quot.sound]
'Props.C132_digit': [propext, Classical.choice, Quot.sound]
'Props.C132_line': [propext, Classical.choice, Quot.sound]
'Props.C132_phrase': [propext, Classical.choice, Quot.sound]
'Props.C132_row': [propext, Classical.choice, Quot.sound]
'Props.C132_orphrase': [propext, Classical.choice, Quot.sound]
'Props.C132_ip': [propext, Classical.choice, Quot.sound]
'Props.C132_prefix': [propext, Classical.choice, Quot.sound]
'Props.C132_ipv6': [propext, Classical.choice, Quot.sound]
'Props.C132_prefixv6': [propext, Classical.choice, Quot.sound]
'Props.C132_mac': [propext, Classical.choice, Quot.sound]
'Props.C132_every_address': [propext, Classical.choice, Quot.sound]
'Props.C132_not_only_addresses': [propext, Classical.choice, Quot.sound]
'Props.C132_mac_mixed': [propext, Classical.choice, Quot.sound]
'Props.C132_ipv6_limits': [propext, Classical.choice, Quot.sound]
'Props.C132_one_line': [propext, Classical.choice, Quot.sound]
'Props.C132_escaped': [propext, Classical.choice, Quot.sound]
'Props.C133_json': [propext, Classical.choice, Quot.sound]
'Props.C133_equal': [propext, Classical.choice, Quot.sound]
'Props.C133_defined': [propext, Quot.sound]
'Props.C133_ascii': [propext, Classical.choice, Quot.sound]
'Props.C133_different': [propext, Classical.choice, Quot.sound]
'Props.C133_compact': [propext, Classical.choice, Quot.sound]
'Props.C133_number_keys': [propext, Classical.choice, Quot.sound]
'Props.C133_json_tag': [propext, Classical.choice, Quot.sound]
'Props.C134_unambiguous': [propext, Classical.choice, Quot.sound]
'Props.C134_json': [propext, Classical.choice, Quot.sound]
'Props.C134_last_value': [propext, Quot.sound]
'Props.C135_nothing': [propext]
'Props.C135_default': [propext, Quot.sound]
'Props.C135_unknown': [propext]
'Props.C135_text': [propext]
'Props.C135_json': [propext, Classical.choice, Quot.sound]
'Props.C135_json_round_trip': [propext, Classical.choice, Quot.sound]
'Props.C135_csv': [propext, Classical.choice, Quot.sound]
'Props.C135_python_yaml': [propext, Quot.sound]
'Props.C135_ini': [propext, Quot.sound]
'Props.C135_missing_file': [propext, Quot.sound]
'Props.C136_macro': [propext]
'Props.C136_is_equal': [propext, Classical.choice, Quot.sound]
'Props.C136_traverse': [propext, Classical.choice, Quot.sound]
'Props.C136_dict_to_list': [propext, Quot.sound]
'Props.C137_parser': [propext, Classical.choice, Quot.sound]
'Props.C137_no_tree': [propext, Quot.sound]
'Props.C137_unambiguous': [propext, Classical.choice, Quot.sound]
'Props.C137_proper': [propext, Classical.choice, Quot.sound]
'Props.C138_round_trip': [propext, Classical.choice, Quot.sound]
'Props.C138_read_write_read': [propext, Classical.choice, Quot.sound]
'Props.C138_extend': [propext, Classical.choice, Quot.sound]
'Props.C138_no_extend': [propext, Classical.choice, Quot.sound]
'Props.C138_return_lost': [propext]
'Props.C139_plain': [propext, Classical.choice, Quot.sound]
'Props.C139_escaped': [propext, Classical.choice, Quot.sound]
'Props.C139_plain_template': [propext, Classical.choice, Quot.sound]
'Props.C140_text_loads': [propext, Classical.choice, Quot.sound]
'Props.C140_text_error': [propext, Classical.choice, Quot.sound]
'Props.C141_templates_inside': [propext, Classical.choice, Quot.sound]
'Props.C141_as_written': [propext, Classical.choice, Quot.sound]
'Props.C141_lines_lost': [propext, Classical.choice, Quot.sound]
'Props.C141_shown': [propext, Classical.choice, Quot.sound]
'Props.C142_text_after_template': [propext, Classical.choice, Quot.sound]
'Props.C143_arguments': [propext, Classical.choice, Quot.sound]
'Props.C143_unambiguous': [propext, Classical.choice, Quot.sound]
'Props.C143_pipe': [propext, Classical.choice, Quot.sound]
'Props.C143_not_loaded': [propext, Classical.choice, Quot.sound]
'Props.C143_wrong_order': [propext, Quot.sound]
'Props.C143_quotes_optional': [propext]
'Props.C143_constants': [propext]
'Props.C143_headings': [propext, Classical.choice, Quot.sound]
'Props.C143_backslash': [propext, Classical.choice, Quot.sound]
'Props.C143_taken': [propext, Classical.choice, Quot.sound]
'Props.C144_lookup_tables': [propext, Quot.sound]
'Props.C145_input_tags': [propext, Classical.choice, Quot.sound]
'Props.C145_text_tag_loads': [propext, Classical.choice, Quot.sound]
'Props.C145_second_functions_lost': [propext]
'Props.C145_data_doubled': [propext]
'Props.C145_name_in_text': [propext]
'Props.C145_commands_as_list': [propext]
'Props.C146_template_lookup': [propext, Classical.choice, Quot.sound]
'Props.C146_group_lookup': [propext, Classical.choice, Quot.sound]
'Props.C146_no_table': [propext, Classical.choice, Quot.sound]
'Props.C147_group_to_ip': [propext, Classical.choice, Quot.sound]
'Props.C147_missing': [propext]
'Props.C148_cerberus': [propext]
'Props.C148_validate': [propext, Classical.choice, Quot.sound]
'Props.C148_no_schema': [propext]
'Props.C149_reports': [propext, Classical.choice, Quot.sound]
'Props.C149_no_schema': [propext]
'Props.C149_changes_results': [propext, Classical.choice, Quot.sound]
'Props.C150_deepdiff': [propext, Classical.choice, Quot.sound]
'Props.C150_other_sources': [propext, Classical.choice, Quot.sound]
'Props.C150_errors': [propext, Quot.sound]
'Props.C151_rich_template': [propext, Classical.choice, Quot.sound]
'Props.C151_object': [propext, Classical.choice, Quot.sound]
'Props.C151_one_meaning': [propext, Quot.sound]
'Props.C151_example': [propext, Classical.choice, Quot.sound]
'Props.C151_variables_example': [propext, Classical.choice, Quot.sound]
'Props.C151_ignore_example': [propext, Classical.choice, Quot.sound]
'Props.C151_rejected_end': [propext, Quot.sound]
'Props.C152_excel': [propext, Classical.choice, Quot.sound]
'Props.C152_new_book': [propext, Quot.sound]
'Props.C152_titles_once': [propext, Quot.sound]
'Props.C152_update_loses': [propext, Classical.choice, Quot.sound]
'Props.C152_columns': [propext]
'Props.C152_second_run': [propext]
'Props.C152_no_path': [propext, Quot.sound]
'Props.C152_required': [propext]
'Props.C152_cells': [propext, Classical.choice, Quot.sound]
'Props.C153_installed_partial': [propext, Classical.choice, Quot.sound]
'Props.C153_new_name_partial': [propext, Classical.choice, Quot.sound]
'Props.C153_own_name': [propext, Classical.choice, Quot.sound]
'Props.C153_overwritten': [propext, Classical.choice, Quot.sound]
'Props.C153_example': [propext, Classical.choice, Quot.sound]
'Props.ttpFiles_clean': [propext, Classical.choice, Quot.sound]
'Props.C154_sees': [propext, Classical.choice, Quot.sound]
'Props.C154_own_partial': [propext, Classical.choice, Quot.sound]
'Props.C154_first_call_partial': [propext, Classical.choice, Quot.sound]
'Props.C154_other_object': [propext, Classical.choice, Quot.sound]
'Props.C155_list': [propext, Classical.choice, Quot.sound]
'Props.C155_flat_list': [propext, Classical.choice, Quot.sound]
'Props.C155_dictionary': [propext, Classical.choice, Quot.sound]
'Props.C155_without': [propext, Quot.sound]
'Props.C155_other': [propext, Quot.sound]
'Props.C155_condition': [propext, Classical.choice, Quot.sound]
'Props.C155_example_list': [propext]
'Props.C155_example_dictionary': [propext]
'Props.C155_example_flat': [propext]
'Props.C155_example_raw': [propext]
'Props.C156_plain': [propext, Classical.choice, Quot.sound]
'Props.C156_output': [propext, Classical.choice, Quot.sound]
'Props.C156_no_data': [propext, Quot.sound]
'Props.C157_nested_rich_template': [propext, Classical.choice, Quot.sound]
'Props.C157_object': [propext, Classical.choice, Quot.sound]
'Props.C157_one_meaning': [propext, Quot.sound]
'Props.C157_example': [propext, Classical.choice, Quot.sound]
'Props.C158_servers_partial': [propext, Classical.choice, Quot.sound]
'Props.C158_leak': [propext, Classical.choice, Quot.sound]
'Props.DnsEx.C158_example': [propext]
'Props.C159_lookup': [propext, Classical.choice, Quot.sound]
'Props.C159_raises': [propext, Quot.sound]
'Props.DnsEx.C159_example': [propext]
'Props.C160_lookup': [propext, Classical.choice, Quot.sound]
'Props.C160_no_library': [propext]
'Props.GeoEx.C160_example': [propext, Quot.sound]
'Props.GeoEx.C160_twice': [propext]
'Props.C161_get_template': [propext, Classical.choice, Quot.sound]
'Props.C161_several': [propext, Quot.sound]
'Props.C161_inside': [propext, Classical.choice, Quot.sound]
'Props.C162_command_line': [propext, Classical.choice, Quot.sound]
'Props.C162_bad_vars': [propext, Classical.choice, Quot.sound]
'Props.C162_apostrophe': [propext, Classical.choice, Quot.sound]
'Props.C162_no_template': [propext, Classical.choice, Quot.sound]
'Props.C162_other_letters': [propext]
'Props.C162_one_and_multi': [propext, Quot.sound]
'Props.C162_named_template_no_data': [propext, Quot.sound]
'Props.C163_arguments': [propext, Classical.choice, Quot.sound]
'Props.C164_expressions': [propext, Classical.choice, Quot.sound]
'Props.C165_chain': [propext, Quot.sound]
'Props.C165_unknown': [propext, Quot.sound]
'Props.C165_forever': [propext, Quot.sound]
'Props.C166_list': [propext, Quot.sound]
'Props.C166_bare_list': [propext, Quot.sound]
'Props.C166_dict': [propext]
'Props.C166_unknown_scope': [propext, Quot.sound]
'Props.C166_unchecked': [propext]
'Props.C166_no_model': [propext, Quot.sound]
'Props.C167_library_partial': [propext, Quot.sound]
'Props.C167_again': [propext, Quot.sound]
'Props.C167_missing_partial': [propext, Quot.sound]
'Props.C167_stale': [propext]
'Props.C168_diagram': [propext, Classical.choice, Quot.sound]
'Props.C168_no_diagram': [propext]
'Props.C169_placed_template': [propext, Classical.choice, Quot.sound]
'Props.C169_object': [propext, Classical.choice, Quot.sound]
'Props.C169_of_list': [propext]
'Props.C169_one_meaning': [propext, Classical.choice, Quot.sound]
'Props.C169_example': [propext, Classical.choice, Quot.sound]
'Props.C170_group_functions': [propext, Classical.choice, Quot.sound]
'Props.C170_object': [propext, Classical.choice, Quot.sound]
'Props.C170_contains': [propext, Classical.choice, Quot.sound]
'Props.C170_example': [propext, Classical.choice, Quot.sound]
'Props.C171_checks': [propext, Classical.choice, Quot.sound]
'Props.C171_object': [propext, Classical.choice, Quot.sound]
'Props.C171_example': [propext, Classical.choice, Quot.sound]
'Props.C172_group_default': [propext, Classical.choice, Quot.sound]
'Props.C172_object': [propext, Classical.choice, Quot.sound]
'Props.C172_defaults': [propext, Quot.sound] 
