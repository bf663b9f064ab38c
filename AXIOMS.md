# Axioms of the property theorems

Generated by tools/axioms.py from `#print axioms`.

## no axioms (24)

C17_remove_by_pointer_on_shared_list_is_undefined, C17_null_payload_is_uninitialised_after_detach, C17_iterator_dangles_after_detach, C18_zero_capacity_is_undefined, C32_stray_character_accepted, C38_zero_is_ambiguous, C39_dropping_too_much, C39_empty_string_read_beyond_negated, C40_unsafe_accepts_anything_negated, C48_concatenate_none, C105_has_next_reads_freed_node, C105_shared_list_destroys_the_copy, C105_shared_list_borrows_the_copys_nodes, Logging.C110_raw_skips_the_hook_negated, C125_names_round_trip, C146_null_has_no_type_name_negated, C150_no_short_form_negated, C150_not_escaped_negated, WinPass.C151_any_answer_is_an_ack_negated, WinPass.C151_split_pid_negated, WinPass.C151_huge_pid_negated, Dirent.C158_small_limit_negated, C170_strerror_cuts_negated, CompatMiscSpec.C176_dirfd_negated

## propext (111)

C15_pushN_can_strand_a_consumer, C22_attribute_values_are_not_escaped, C22_comment_may_contain_double_hyphen, C23_round_trip, C24_key_not_escaped, C24_string_changed, C25_backslash_at_end, C28_integer_exits, C33_groups_lost, C33_brackets_reverse, C33_brackets_port_lost, C33_seven_groups_refused, C33_malformed_accepted, C34_null_not_an_order, C40_decimal_no_integer_part, C43_case_laws, C45_equal_not_transitive, C47_nul_bytes_dropped, C51_register_during_cleanup_deadlocks, C52_hashesMatch, C53_trailing_backslash_reads_past_end, C55_unsignedModulus_overflow, C61_quote_blank_separator_is_not_terminated, C61_misplaced_final_quote_is_accepted, C64_single_quote_is_not_quoted, C66_matchesOption_assert, C69_bad_prefix_undefined, C69_short_prefix_undefined, C71_nul_before_digit, C72_malformed_accepted, Compat.C78_strcasecmp_high_bytes_first_not_unsigned, Compat.C78_strncasecmp, Compat.C79_strsep_null, Mustache.C81_second_delimiter_overflow, Mustache.C82_unordered_witness, Mustache.C83_row_leak, Mustache.C83_hidden_shown, C87_groups_lost, C87_trailing_colon, C89_needs_fresh_destination, C91_null_buffer, C92_two_locks, C99_zero_with_precision_zero, C99_char_width_ignored, C99_least_intmax_undefined, C99_reads_past_precision, C99_separators_shorten, Logging.C112_help_after_others_negated, PassFile.C118_second_descriptor_leaks_negated, PassFile.C118_long_text_negated, PassFile.C118_verbose_overread_negated, RegexMatch.C119_compare, KeyValue.C120_long_line_negated, SetJson.C121_flat_arrays, Yaml.C122_alias_negated, Yaml.C122_empty_negated, Yaml.C122_error_negated, Yaml.C122_complex_key_negated, C125_no_file, C125_names, C132_negative_zero_negated, C132_hexadecimal_negated, C132_precision_negated, C132_two_integer_digits_negated, C132_exponent_of_three_digits_negated, C132_beyond_99_negated, C132_below_minus_99_negated, C132_significant_digits_negated, JsonHeap.C133_moving_an_element_negated, JsonHeap.C133_replacing_a_child_negated, JsonHeap.C134_unended_string_loses_the_array_negated, JsonHeap.C134_output_left_alone_negated, JsonHeap.C134_cut_file_negated, Ip.C135_loopback_negated, Ip.C135_port_uninitialised_negated, Ip.C135_accepts_blanks_and_signs_negated, Ip.C135_lengths, Ip.C135_is_ip_address, AddrInfo.C139_empty_list_negated, AddrInfo.C139_service_name_negated, Unicode.C144_latin1_lost_negated, Unicode.C144_size_zero_negated, C146_null_as_string_negated, C150_blank_in_name_negated, C152_not_any_depth_negated, C152_dots_listed_negated, C153_cygwin_overflow_negated, RB.C156_default_comparison_negated, WinLock.C160_check_negated, C168_file_not_opened, HdrSpec.C173_length_negated, HdrSpec.C173_length_extremes, HdrSpec.C174_abs_negated, HdrSpec.C174_sizes_partial, HdrSpec.C174_sizes_negated, CompatMiscSpec.C175_nanosleep_negated, CompatMiscSpec.C178_loadavg_linux_negated, CompatMiscSpec.C178_loadavg_netbsd_negated, CompatMiscSpec.C179_times, LogThreadsSpec.C180_torn_levels_negated, C182_soft_copy_destroys_twice_negated, C182_soft_sort_destructor_negated, C183_state_not_restored_negated, C184_race_gives_a_cut_path_negated, C187_copy_destroys_twice_negated, C187_iterator_after_clear_negated, C187_empty_queue_negated, C187_iterator_after_destroy_negated, JsonWriteHeap.C189_write_leaves_order_negated, JsonWriteThreads.C190_first_writes_negated, JsonWriteThreads.C190_three_first_writes_negated

## Quot.sound, propext (220)

C01_append_destroys_only_the_oldest, C04_shuffle_permutes, C17_copy_refused_without_copy_function, C18_copy_of_byte_array_is_truncated, C18_switch_to_cstring_does_not_terminate, C18_append_nul_char_depends_on_capacity, C25_backslashes_counted, C33_memory_safe, C33_full_form, C33_bracket_form, C33_other_characters_refused, C33_two_gaps_refused, C34_equal, C37_stringCopy, C37_stringCopy_zero_size_is_undefined, C37_strlcpy_zero, C37_strlcat_full, C37_stringAppend_zero_size_unbounded, C38_replaced_unique, C39_start_before_string, C40_numeral_unique, C41_countTokens, C41_getToken, C41_getToken_null, C41_freeStringArray, C42_chop_size_max, C42_closeHole, C43_toUpperStr_any, C43_toLowerStr, C43_toUpperStr_partial, C43_toUpper_cuts_at_blank, C44_canonifyInPlace, C44_canon_laws, C45_compare, C46_write_terminates, C46_read_terminates, C47_terminates, C48_strCat_overflown, C48_concatenate, C48_joinAlloc, SafeOpen.C50_race_negated, SafeOpen.C50_uid_wrong_negated, SafeOpen.C50_root_ignores_flags_negated, C52_hex_injective, C52_skipHashType, C56_addSplit_pieces, C60_order_depends_on_mode, CsvParser.C61_uninitialised_read_negated, C64_getQuoted, C65_endsWith, C65_endsWithCase, C65_startsWith, C66_compare_variants, C66_order_laws, C66_isStrIn, C67_replaceTrailingChar, C67_memcchr, C67_scanPastChars, C68_class_tests, C70_split, C70_split_unique, C70_contains_length, C71_json5_escape_partial, C72_strings_unescaped_twice, Compat.C76_memmem_partial, Compat.C76_memmem_empty_negated, Compat.C76_memrchr, Compat.C76_strstr_partial, Compat.C76_strcasestr_partial, Compat.C76_strstr_empty_negated, Compat.C76_strrstr_partial, Compat.C76_strrstr_misses_the_beginning_negated, Compat.C77_strdup, Compat.C77_memdup, Compat.C77_stpncpy, Compat.C78_strcasecmp_zero, Compat.C78_strcasecmp_antisymm, Compat.C80_getline_some, Compat.C80_getline_eof, Mustache.C81_delimiter_overflow, Mustache.C83_lexical_scopes, Mustache.C83_not_lexical, Mustache.C84_no_markup, Mustache.C84_amp, Mustache.C84_injective, Mustache.C84_plain, C86_canon_unique, C91_read_lines, C91_total, C92_unlock, C94_walk, C95_current_type_before_first, C101_deterministic, C101_prefix_forgotten, C101_byte_255_ends, C102_words_kept, C102_call_permutes, PcreWrap.C103_deterministic, PcreWrap.C103_disjoint, PcreWrap.C103_text_behind_uninitialised, PcreWrap.C103_text_before_uninitialised, PcreWrap.C103_nul_overflow, PcreWrap.C103_many_references, PcreWrap.C103_bad_reference_spoils_next, PcreWrap.C103_group_33, PcreWrap.C103_number_overflow, PcreWrap.C103_empty_match_twice, PcreWrap.C103_many_groups_ignored, PcreWrap.C104_plain, PcreWrap.C104_quoted, C105_written_lists_are_unshared, C105_refused, SafeOpen.C106_dirname_basename, SafeOpen.C106_link_leaf_negated, SafeOpen.C107_link_leaf_negated, SafeOpen.C108_path_through_tree_negated, SafeOpen.C108_race_negated, SafeOpen.C108_truncated_path_negated, SafeOpen.C109_other_characters_end_the_program, SafeOpen.C109_creat, SafeOpen.C109_rw_empties_the_file_negated, Logging.C110_debug_module_range, Logging.C110_nothing_ends_the_program_negated, Logging.C112_every_string_is_a_list, Hash.C114_hashString, Hash.C114_unsupported, Hash.C114_read_error_overread_negated, Hash.C114_file_read_error_negated, Hash.C114_unreadable_files_match_negated, Hash.C115_equal, Hash.C116_bytes, PassFile.C118_channel, PassFile.C118_any_peer_partial, RegexMatch.C119_match_partial, RegexMatch.C119_partialMatch, SetJson.C121_not_an_array, SetJson.C121_nested_array_negated, Yaml.C122_no_abort, C125_kind_of_name, C125_kind_of_suffix, TDT.C127_zero_items_strands_a_consumer_negated, TQF.C129_pushN_strands_a_consumer_negated, TQF.C129_zero_items_strands_a_consumer_negated, At.C130_accepted, At.C130_home, At.C131_progress, Environ.C136_unsetenv_refused, CloseFrom.C137_via_proc, CloseFrom.C137_pstat_closes_everything_negated, Mkdtemp.C138_names_count_up, Mkdtemp.C138_refused, AddrInfo.C139_refused, AddrInfo.C139_port, Writers.C140_file_writer, Writers.C140_close_file, Writers.C140_detach, Writers.C140_wrong_kind, Writers.C140_nul_character_negated, Writers.C140_nul_in_format_negated, Writers.C140_failed_format_count_negated, Statistics.C143_expectation, Statistics.C143_constant, Statistics.C143_difference, Statistics.C143_variance_step, Base64.C145_round_trip, Base64.C145_newline_inside_negated, C147_failed_copy_leaks_negated, C147_attributes_not_destroyed_negated, C148_failed_match_leaks_negated, C148_messages_tell_errors_apart, C149_same_number_negated, C150_source_date_epoch, WinPass.C151_received_or_closed_partial, WinPass.C151_text_never_arrives_negated, WinPass.C151_unwanted_text_undefined_negated, WinPass.C151_sent_to_the_asker, C152_listDir, C153_map_windows, C153_map_forward, C153_forward_returns_null_negated, C153_map_cygwin, Format.C154_stream_gets_the_text, Format.C154_stream_refused, Format.C154_short_write_negated, Format.C154_xasprintf, Format.C154_csvFieldF, Format.C154_programming_error, RB.C156_verify_is_the_red_black_rule, StrHash.C157_depends_on_the_string, Dirent.C158_entry_holds_the_name, Dirent.C158_no_limit_negated, FileMisc.C159_regular_file, FileMisc.C159_umask_restored, HashPtr.C166_end_is_final, HashPtr.C167_clear_keeps_the_buckets, C168_result, C168_failed_write_is_silent_negated, C168_reading_uses_up_descriptors, C170_windows_messages, C170_windows_short_message_negated, CompatMiscSpec.C175_nanosleep_partial, CompatMiscSpec.C176_dirfd_partial, LogThreadsSpec.C180_first_use, CleanupThreadsSpec.C181_no_registration_is_lost, CleanupThreadsSpec.C181_cleanup_is_complete, CleanupThreadsSpec.C181_memory, CleanupThreadsSpec.C181_no_deadlock, CleanupThreadsSpec.C181_every_schedule_ends, CleanupThreadsSpec.C181_late_registration_negated, C183_reproducible, C183_every_order, C183_no_order_twice, C184_only_beginnings_of_the_path, C184_complete_from_then_on, C184_call_before_starting_threads, C188_self_append_negated, C188_self_append_room, C188_set_from_itself_negated, C188_stale_pointer_negated, C188_close_bytes_negated

## Classical.choice, Quot.sound, propext (453)

C01_ring_buffer_keeps_newest, C01_clear_destroys_each_visible_once, C02_queue_is_fifo, C02_dequeue_on_empty_is_undefined, C03_stack_is_lifo, C03_copy_has_same_contents, C04_seq_is_a_list, C04_lookup_finds_first, C04_getRange_and_split, C05_sort_sorts, C05_softSort_sorts, C06_binary_search_exact, C07_map_is_a_finite_map, C08_map_destroys_exactly_once, C09_set_is_a_set, C10_rbtree_is_a_finite_map, C11_iteration_sorted_and_complete, C12_tree_is_balanced, C13_copy_partial, C13_copy_loses_the_largest, C13_copy_of_empty_is_undefined, C14_threaded_queue_is_fifo, C15_no_lost_wakeup_partial, C16_threaded_deque_is_a_deque, C17_lists_are_isolated_values, C17_lists_without_copy_function, C17_lists_compared_by_address, C18_buffer_is_a_byte_string, C18_cstring_is_terminated_partial, C18_newFrom, C18_copy, C19_string_writer_concatenates, C20_csv_record_round_trips, C20_unterminated_record_round_trips, C20_unterminated_empty_field_after_quoted_is_lost, C21_line_reader_returns_the_records, C21_lines_concatenate_to_the_file, C22_xml_content_reads_back, C22_xml_tag_reads_back, C22_xml_start_tag_reads_back, C22_xml_element_reads_back, C22_xml_comment_reads_back, C24_write_parse_partial, C24_numbers, C24_long_real_unreadable, C25_leaves_the_text_exactly, C25_parse_total_even, C25_parse_total_partial, C26_object_is_map, C27_equal_documents_partial, C27_zero_iff_shape, C27_contents_ignored, C28_copy_exactly, C28_copy_partial, C28_large_integer_truncated, C29_merge, C30_serialized_text, C30_round_trip_partial, C30_long_string_lost, C31_memory_safe, C32_parse_iff, C32_accepts_exactly_partial, C33_compressed_form_partial, C33_accepted_exactly, C34_less, C34_strict_weak_order, C35_round_trip, C35_parsed_v4, C35_parsed_round_trip, C36_upperPowerOfTwo_partial, C36_upperPowerOfTwo_wrong_above_2_32, C36_ispow2, C36_right_exactly, C37_strlcpy, C37_strlcat, C37_stringAppend, C37_stpncpy, C37_notMatchingSetCapped, C38_searchAndReplace, C38_unchanged, C38_stringReplace, C39_substring_partial, C39_single_character_is_null, C39_negative_start_ignores_length, C39_every_call, C40_toLong, C40_toUlong, C40_roundtrip, C40_decimalToLong, C40_toLongDefault, C40_toUlongDefault, C40_toInt64Default, C40_exit_variants, C41_string2StringArray, C41_array_freed, C42_chop, C42_stripTrailingNewline, C42_trimWhitespace, C42_trimCSVLineCRLF, C42_trimStrict, C44_stringCanonify, C45_antisymmetric, C46_write, C46_read, C47_read_from_fd_partial, C47_any_file, C48_pathAppend, C48_strCat, C48_strCatDelim, C49_escapeCharCopy_partial, C49_escaped_pair_overflows, SafeOpen.C50_every_component_checked_partial, SafeOpen.C50_no_descriptor_leaks, SafeOpen.C50_failure_changes_nothing, SafeOpen.C50_only_the_returned_file_is_changed, SafeOpen.C50_trusted_path_opens, SafeOpen.C50_untrusted_component_refused, SafeOpen.C50_missing_file_created, SafeOpen.C50_missing_component_reported, SafeOpen.C50_exclusive_creation_refuses_existing, SafeOpen.C50_nested_link_negated, C51_lifo_once, C52_bytesToHex, C52_hashPrintSafe, C52_printable, C53_line_partial, C53_reads_past_the_end_exactly, C54_refcount_is_the_list_of_owners, C55_unsignedModulus, C55_unsignedModulus_negative, C56_toBuffer_joins, C56_addSplit_adds_exactly_the_pieces, C57_equal_iff_same_contents, C58_tree_destroys_exactly_once, C59_wait_empty_is_woken, C60_compare_is_lexicographic, C61_csv_parsing_is_memory_safe_partial, C62_html_rendering_reads_back, C63_copyTruncateAndHash, C64_basename, C66_compare, C66_equal, C66_matchesOption, C67_replaceChar, C69_file_round_trip, C72_every_text_is_read, C72_every_text_accepted, C72_unicode_escapes_kept_negated, C72_rfc_text_accepted_partial, C73_same_document_same_text, C74_nothing_left_after_all_lists_destroyed, C74_every_node_belongs_to_a_live_list, C75_iterator_is_a_cursor, C75_iterator_refused_after_remove, Compat.C76_strchrnul, Compat.C77_strnlen, Compat.C77_strndup, Compat.C78_strcasecmp_order_partial, C78_strcasecmp_order_all, Compat.C79_strsep_all, Compat.C80_getline_all, Mustache.C81_total_partial, Mustache.C81_total_any, Mustache.C82_render, Mustache.C82_render_any, Mustache.C82_unclosed, Mustache.C83_flat_lexical_partial, Mustache.C83_nested_lexical_partial, Mustache.C83_listless_lexical, Mustache.C84_variable, Mustache.C84_comments, C85_pton, C85_ntop, C85_round_trip, C86_ntop, C87_accepts, C87_exact, C87_round_trip, C87_not_compiled_in, C88_accepts_exactly, C88_rejects, C88_unambiguous, C89_sparse_copy, C90_file_copy, C90_copy_to_itself, C92_mutual_exclusion, C92_attempt, C92_progress, C92_check, C92_descriptor_leak, C93_select, C93_bad_index_exits, C95_iterator_is_cursor, C96_array_is_list, C97_read_back, C97_default, C98_one_text_for_every_buffer, C99_text_is_that_of_the_standard_partial, C99_count_stored, C99_too_large, C99_grouped, C99_pointer, C99_hex_precision_undefined, C100_asprintf, C101_reading_partial, C102_options_first, PcreWrap.C103_replaced_partial, PcreWrap.C103_total, PcreWrap.C104_plain_replaced, PcreWrap.C104_no_match, C105_cursor, SafeOpen.C106_lchown_checked_partial, SafeOpen.C106_chown_checked_partial, SafeOpen.C106_owner_set, SafeOpen.C106_missing_reported, SafeOpen.C106_untrusted_link_refused, SafeOpen.C107_chmod_checked_partial, SafeOpen.C107_mode_set, SafeOpen.C108_tree_deleted_partial, SafeOpen.C108_missing_is_success, SafeOpen.C108_untrusted_link_refused, SafeOpen.C108_no_descriptor_leaks, SafeOpen.C109_modes_mean_what_they_say, SafeOpen.C109_fopen_checked_partial, SafeOpen.C109_fopen_opens, SafeOpen.C109_chdir_checked_partial, SafeOpen.C109_chdir_goes_there, SafeOpen.C109_fopen_leaves_no_descriptor, Logging.C110_messages_go_where_the_levels_say, Logging.C110_wouldLog, Logging.C110_raw_partial, Logging.C110_debug, Logging.C111_level_from_string, Logging.C111_nothing, Logging.C111_level_argument, Logging.C111_round_trip, Logging.C112_enable_modules, Logging.C113_byte_counts, Hash.C114_hashNew, Hash.C114_descriptor_partial, Hash.C114_hashFile_partial, Hash.C115_copy, Hash.C115_names, Hash.C116_keys, TStack.C117_linearizable, TStack.C117_progress, TStack.C117_popped_was_pushed, RegexMatch.C119_answer, RegexMatch.C119_full_partial, RegexMatch.C119_ten_groups_negated, RegexMatch.C119_captures, RegexMatch.C119_captureData, KeyValue.C120_parse_partial, KeyValue.C120_numeric_partial, KeyValue.C120_any_text, KeyValue.C120_any_numeric, SetJson.C121_array_to_set, SetJson.C121_other_arrays_partial, SetJson.C121_round_trip, SetJson.C121_every_element, Yaml.C122_read_partial, Yaml.C122_leading_number_negated, Yaml.C122_integers_negated, Yaml.C122_bool_tag_negated, C123_env_file_partial, C124_csv_file_partial, C124_records, C124_written_file, C125_json_file_partial, C125_yaml_file_partial, TDT.C126_linearizable, TDT.C126_progress, TDT.C127_no_lost_wakeup, TDT.C127_wait_empty_is_woken, TQF.C128_linearizable, TQF.C128_progress, TQF.C129_no_lost_wakeup_partial, TQF.C129_wait_empty_is_woken, At.C131_nine_steps, C132_float_text_is_that_of_the_standard_partial, C132_digits_determined, C132_large_numbers_negated, JsonHeap.C133_elements_behave_like_values, JsonHeap.C133_own_name_as_key_negated, JsonHeap.C134_parsed_element_is_all_there_is, JsonHeap.C134_failed_parse_leaves_nothing_partial, JsonHeap.C134_at_most_one_array_is_lost, JsonHeap.C134_file_partial, JsonHeap.C134_refused_file_partial, Ip.C135_v4, Ip.C135_v4_port, Ip.C135_procfs_v4, Ip.C135_v6, Ip.C135_v6_port, Ip.C135_procfs_v6_reversed_negated, Environ.C136_unsetenv, Environ.C136_unsetenv_unset, Environ.C136_setenv, Environ.C136_setenv_refused, Environ.C136_putenv, Environ.C136_putenv_refused, Environ.C136_second_survives_negated, CloseFrom.C137_via_range, CloseFrom.C137_via_range_below_limit, CloseFrom.C137_limit_negated, Mkdtemp.C138_mkdtemp, Mkdtemp.C138_closes_standard_input_negated, Mkdtemp.C138_bare_template_negated, AddrInfo.C139_getaddrinfo, AddrInfo.C139_known_host, AddrInfo.C139_without_lookup, AddrInfo.C139_canonname_negated, AddrInfo.C139_getnameinfo, AddrInfo.C139_swapped_port_negated, Writers.C140_string_writer, Writers.C140_loss_is_reported, Writers.C140_same_text, Writers.C140_close_string, Writers.C140_string_close, Writers.C141_help_string, Writers.C141_help_file, Writers.C141_every_option_is_listed, Writers.C141_flag_option_negated, KnownDirs.C142_expected_directory, KnownDirs.C142_results_survive, KnownDirs.C142_cached, KnownDirs.C142_truncated_on_second_call_negated, KnownDirs.C142_no_passwd_entry_negated, KnownDirs.C142_override_cut_negated, Statistics.C143_mixture, Statistics.C143_bounds, Statistics.C143_bad_weight_negated, Statistics.C143_round, Unicode.C144_to_wide, Unicode.C144_to_char, Unicode.C144_ascii_round_trip, Base64.C145_lines, C146_typed_members, C146_typed_items, C147_account, C147_all_returned, C148_job_memory, C148_search_memory, C148_bad_pattern_message_negated, C149_set, C149_get, C149_methods, C149_rename_answer, C150_page, WinPass.C151_exchange_without_text, WinPass.C151_exchange_with_text_negated, C152_glob, C152_below, C153_absolute, C153_absolute_windows, C153_map_cygwin_in_place, C153_copy_to_dir, Format.C154_kinds, Format.C154_stringFormat, Format.C154_xsnprintf, Format.C154_xsnprintf_size_zero_negated, Format.C154_error_message, TQT.C155_time_limits, TQT.C155_every_call_goes_on, RB.C156_verify_passes, RB.C156_default_comparison, StrHash.C157_seeds_are_permuted, StrHash.C157_one_byte_changes_the_hash, StrHash.C157_lawful_for_maps, Dirent.C158_buffer_fits, FileMisc.C159_reads_the_stream, FileMisc.C159_close_on_exec, WinLock.C160_mutual_exclusion, WinLock.C160_attempt, WinLock.C160_released, WinLock.C160_waits_for_itself_negated, RBPtr.C161_pointer_tree_is_a_finite_map, RBPtr.C162_memory_is_exactly_accounted, RBPtr.C162_clear_destroys_null, RBPtr.C163_iterators_survive_other_changes, RBPtr.C163_removed_iterator_negated, RBPtr.C163_iterator_on_empty_tree_negated, HashPtr.C164_hash_map_in_memory_is_a_finite_map, HashPtr.C164_memory_is_exactly_accounted, HashPtr.C165_pointers_survive, HashPtr.C166_iteration, HashPtr.C166_small_maps_do_not_resize, HashPtr.C166_removing_the_next_item_negated, HashPtr.C166_growing_during_iteration_negated, HashPtr.C166_shrinking_during_iteration_negated, HashPtr.C167_never_overfull, HashPtr.C167_stats_are_right, HashPtr.C167_stats_lie_about_bucket_0_negated, C168_written_file_is_read_back, C168_true_is_complete_if_close_reports, C168_crash_leaves_a_prefix, C169_always_a_string, C169_text, C169_texts_sort_in_time_order, C169_sixty_four_bytes_suffice, C170_strerror, C170_strsignal, C170_reason_for_long, C170_reason_for_ulong, HdrSpec.C171_printsize, HdrSpec.C172_little_endian, HdrSpec.C173_null_partial, HdrSpec.C173_contains, HdrSpec.C173_printable, HdrSpec.C174_abs_partial, HdrSpec.C174_abs_difference, CompatMiscSpec.C176_unsetenv_windows, CompatMiscSpec.C177_drand48_partial, CompatMiscSpec.C177_drand48_large, CompatMiscSpec.C177_drand48_negated, CompatMiscSpec.C178_loadavg_linux_partial, CompatMiscSpec.C178_loadavg_netbsd_partial, CompatMiscSpec.C179_seteuid, CompatMiscSpec.C179_srand48, LogThreadsSpec.C180_each_thread, LogThreadsSpec.C180_whole_lines_partial, LogThreadsSpec.C180_whole_lines_negated, CleanupThreadsSpec.C181_last_registered_first, C182_sequences_are_independent, C182_no_item_is_destroyed_twice, C182_no_item_is_lost, C182_append_to_itself_never_ends_negated, C185_what_is_returned, C185_granted_returns, C185_refused_nothing, C185_out_of_memory, C185_cleanup_calls, C185_register_hangs_negated, C185_cleanup_function_hangs_negated, C185_hangs_only_there, C186_every_line, C186_memory_safe, C186_unambiguous, C186_rfc4180, C186_malformed_end_is_accepted_negated, C186_file, C187_any_program, C187_nothing_left, C187_no_item_lost, C188_any_program, C188_nothing_left, JsonWriteHeap.C189_written_document_is_sorted, JsonWriteHeap.C189_programs_that_write, JsonWriteHeap.C189_writes_never_fail, JsonWriteHeap.C189_writes_only_reorder, JsonWriteThreads.C190_written_is_in_order, JsonWriteThreads.C190_threads_write_at_the_same_time, JsonWriteThreads.C190_threads_write_apart
