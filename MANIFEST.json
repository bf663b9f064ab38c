{
 "claims": [
  {
   "property": "C01",
   "status": "proved",
   "theorems": [
    "C01_ring_buffer_keeps_newest",
    "C01_append_destroys_only_the_oldest",
    "C01_clear_destroys_each_visible_once"
   ],
   "note": "Full statement; simplifications as said in the comments of the model and in DESIGN.md."
  },
  {
   "property": "C02",
   "status": "proved",
   "theorems": [
    "C02_queue_is_fifo",
    "C02_dequeue_on_empty_is_undefined"
   ],
   "note": "Includes the undefined dequeue on an empty queue as a separate theorem."
  },
  {
   "property": "C03",
   "status": "proved",
   "theorems": [
    "C03_stack_is_lifo",
    "C03_copy_has_same_contents"
   ],
   "note": "Full statement; simplifications as said in the comments of the model and in DESIGN.md."
  },
  {
   "property": "C04",
   "status": "proved",
   "theorems": [
    "C04_seq_is_a_list",
    "C04_lookup_finds_first",
    "C04_getRange_and_split",
    "C04_shuffle_permutes"
   ],
   "note": "Full statement; simplifications as said in the comments of the model and in DESIGN.md."
  },
  {
   "property": "C05",
   "status": "proved",
   "theorems": [
    "C05_sort_sorts",
    "C05_softSort_sorts"
   ],
   "note": "Full statement; simplifications as said in the comments of the model and in DESIGN.md."
  },
  {
   "property": "C06",
   "status": "proved",
   "theorems": [
    "C06_binary_search_exact"
   ],
   "note": "Full statement; simplifications as said in the comments of the model and in DESIGN.md."
  },
  {
   "property": "C07",
   "status": "proved",
   "theorems": [
    "C07_map_is_a_finite_map"
   ],
   "note": "Full statement; simplifications as said in the comments of the model and in DESIGN.md."
  },
  {
   "property": "C08",
   "status": "proved",
   "theorems": [
    "C08_map_destroys_exactly_once"
   ],
   "note": "Full statement; simplifications as said in the comments of the model and in DESIGN.md."
  },
  {
   "property": "C09",
   "status": "proved",
   "theorems": [
    "C09_set_is_a_set"
   ],
   "note": "Full statement; simplifications as said in the comments of the model and in DESIGN.md."
  },
  {
   "property": "C10",
   "status": "proved",
   "theorems": [
    "C10_rbtree_is_a_finite_map"
   ],
   "note": "Full statement; simplifications as said in the comments of the model and in DESIGN.md."
  },
  {
   "property": "C11",
   "status": "proved",
   "theorems": [
    "C11_iteration_sorted_and_complete"
   ],
   "note": "Full statement; simplifications as said in the comments of the model and in DESIGN.md."
  },
  {
   "property": "C12",
   "status": "proved",
   "theorems": [
    "C12_tree_is_balanced"
   ],
   "note": "Full statement; simplifications as said in the comments of the model and in DESIGN.md."
  },
  {
   "property": "C13",
   "status": "partial",
   "theorems": [
    "C13_copy_partial",
    "C13_copy_loses_the_largest",
    "C13_copy_of_empty_is_undefined"
   ],
   "note": "The full claim is false of the code: an odd selection of three or more loses its largest pair, and copying an empty tree is undefined. Both are proved as negative theorems; the remaining cases are proved."
  },
  {
   "property": "C14",
   "status": "proved",
   "theorems": [
    "C14_threaded_queue_is_fifo"
   ],
   "note": "Full statement; simplifications as said in the comments of the model and in DESIGN.md."
  },
  {
   "property": "C15",
   "status": "partial",
   "theorems": [
    "C15_no_lost_wakeup_partial",
    "C15_pushN_can_strand_a_consumer"
   ],
   "note": "The full claim is false of the code (PushN signals once for several items); the negative theorem exhibits the schedule, the positive theorem covers single-item pushes and non-zero PopN."
  },
  {
   "property": "C16",
   "status": "proved",
   "theorems": [
    "C16_threaded_deque_is_a_deque"
   ],
   "note": "Full statement; simplifications as said in the comments of the model and in DESIGN.md."
  },
  {
   "property": "C17",
   "status": "proved",
   "theorems": [
    "C17_lists_are_isolated_values",
    "C17_copy_refused_without_copy_function",
    "C17_lists_without_copy_function",
    "C17_lists_compared_by_address",
    "C17_remove_by_pointer_on_shared_list_is_undefined",
    "C17_null_payload_is_uninitialised_after_detach",
    "C17_iterator_dangles_after_detach"
   ],
   "note": "Holds for lists with compare and copy callbacks and non-NULL payloads, for lists without a copy function (copying refused) and for lists without either callback (elements matched by address); the negative theorems show what the code does outside: removal by address on a shared list, NULL payloads, and iterators across a detach."
  },
  {
   "property": "C18",
   "status": "partial",
   "theorems": [
    "C18_buffer_is_a_byte_string",
    "C18_cstring_is_terminated_partial",
    "C18_newFrom",
    "C18_copy",
    "C18_copy_of_byte_array_is_truncated",
    "C18_switch_to_cstring_does_not_terminate",
    "C18_append_nul_char_depends_on_capacity",
    "C18_zero_capacity_is_undefined"
   ],
   "note": "Contents, sizes and bounds are proved for every history in both modes; NUL termination in C-string mode is proved for histories that stay in C-string mode (partial). Negative theorems: switching a full binary buffer to C-string mode leaves it unterminated, appending a NUL char, zero capacity."
  },
  {
   "property": "C19",
   "status": "proved",
   "theorems": [
    "C19_string_writer_concatenates"
   ],
   "note": "Full statement; simplifications as said in the comments of the model and in DESIGN.md."
  },
  {
   "property": "C20",
   "status": "proved",
   "theorems": [
    "C20_csv_record_round_trips",
    "C20_unterminated_record_round_trips",
    "C20_unterminated_empty_field_after_quoted_is_lost"
   ],
   "note": "Proved for every non-empty CRLF-terminated record, and for unterminated records except those with an empty last field after a quoted one, where a theorem shows the code returns the wrong field."
  },
  {
   "property": "C21",
   "status": "proved",
   "theorems": [
    "C21_line_reader_returns_the_records",
    "C21_lines_concatenate_to_the_file"
   ],
   "note": "Full statement; simplifications as said in the comments of the model and in DESIGN.md."
  },
  {
   "property": "C22",
   "status": "proved",
   "theorems": [
    "C22_xml_content_reads_back",
    "C22_xml_tag_reads_back",
    "C22_attribute_values_are_not_escaped",
    "C22_xml_start_tag_reads_back",
    "C22_xml_element_reads_back",
    "C22_xml_comment_reads_back",
    "C22_comment_may_contain_double_hyphen"
   ],
   "note": "Character data (XmlContent, XmlTag values) and start tags with attributes are proved; negative theorems show attribute values are not escaped and that -- is copied into comments."
  },
  {
   "property": "C23",
   "status": "proved",
   "theorems": [
    "C23_round_trip"
   ],
   "note": "Full statement; simplifications as said in the comments of the model and in DESIGN.md."
  },
  {
   "property": "C24",
   "status": "partial",
   "theorems": [
    "C24_write_parse_partial",
    "C24_numbers",
    "C24_key_not_escaped",
    "C24_string_changed",
    "C24_long_real_unreadable"
   ],
   "note": "False as stated: keys are written without escaping, the parser unescapes strings twice, and reals are cut at 31 characters (three negative theorems). Proved for every other element, with the numbers the API makes."
  },
  {
   "property": "C25",
   "status": "partial",
   "theorems": [
    "C25_leaves_the_text_exactly",
    "C25_parse_total_even",
    "C25_backslashes_counted",
    "C25_parse_total_partial",
    "C25_backslash_at_end"
   ],
   "note": "False for a text ending in a backslash inside a string, where the parser steps over the terminator (negative theorem). Every text is settled: with an even number of backslashes at the end (or none) it is proved (C25_parse_total_even); with an odd number the parser leaves the text exactly when the text is the beginning of one of which it accepts a part reaching beyond it (C25_leaves_the_text_exactly)."
  },
  {
   "property": "C26",
   "status": "proved",
   "theorems": [
    "C26_object_is_map"
   ],
   "note": "Full statement; simplifications as said in the comments of the model and in DESIGN.md."
  },
  {
   "property": "C27",
   "status": "partial",
   "theorems": [
    "C27_equal_documents_partial",
    "C27_zero_iff_shape",
    "C27_contents_ignored"
   ],
   "note": "False as stated: comparison never looks inside containers (both iterators run over the same element). The exact condition for a zero result is proved, with a witness of two different documents that compare equal."
  },
  {
   "property": "C28",
   "status": "partial",
   "theorems": [
    "C28_copy_exactly",
    "C28_copy_partial",
    "C28_large_integer_truncated",
    "C28_integer_exits"
   ],
   "note": "False for integers outside int (truncated) and outside long (exit); proved for all documents whose integers are ints and whose reals print back to their text. C28_copy_exactly says what the copy is for all integers in the range of long and all reals."
  },
  {
   "property": "C29",
   "status": "proved",
   "theorems": [
    "C29_merge"
   ],
   "note": "Under the same conditions on numbers as C28, because merging copies."
  },
  {
   "property": "C30",
   "status": "partial",
   "theorems": [
    "C30_serialized_text",
    "C30_round_trip_partial",
    "C30_long_string_lost"
   ],
   "note": "The claim is false for strings of 10^9 bytes or more (the prefix has ten columns): negative theorem. The round trip is proved for all shorter strings."
  },
  {
   "property": "C31",
   "status": "proved",
   "theorems": [
    "C31_memory_safe"
   ],
   "note": "Full statement; simplifications as said in the comments of the model and in DESIGN.md."
  },
  {
   "property": "C32",
   "status": "partial",
   "theorems": [
    "C32_parse_iff",
    "C32_accepts_exactly_partial",
    "C32_stray_character_accepted"
   ],
   "note": "The claim is false as stated: C32_parse_iff characterises exactly what is accepted (dotted quads with optional port, plus texts ending in one stray character, C32_stray_character_accepted); the partial theorem is the claim for texts ending in a digit."
  },
  {
   "property": "C33",
   "status": "partial",
   "theorems": [
    "C33_memory_safe",
    "C33_full_form",
    "C33_bracket_form",
    "C33_compressed_form_partial",
    "C33_groups_lost",
    "C33_brackets_reverse",
    "C33_brackets_port_lost",
    "C33_seven_groups_refused",
    "C33_malformed_accepted",
    "C33_other_characters_refused",
    "C33_two_gaps_refused",
    "C33_accepted_exactly"
   ],
   "note": "The claim is false as stated (finding theorems: groups lost, reversed groups in brackets, port form loses groups, seven groups refused, malformed accepted). C33_accepted_exactly settles every text: it is accepted iff it is one of the nine listed forms, with the numbers and port given there. Also proved: memory safety for every text, full and bracketed forms, compressed forms up to a bound on the groups, and refusal of every text with a character other than 0-9, a-f, ':', '[' and ']' (so also A-F) and of every text with two separate '::'."
  },
  {
   "property": "C34",
   "status": "proved",
   "theorems": [
    "C34_equal",
    "C34_less",
    "C34_strict_weak_order",
    "C34_null_not_an_order"
   ],
   "note": "Includes the finding that a NULL argument breaks the order."
  },
  {
   "property": "C35",
   "status": "proved",
   "theorems": [
    "C35_round_trip",
    "C35_parsed_v4",
    "C35_parsed_round_trip"
   ],
   "note": "The port is not printed, so the re-parsed address has port 0; IPAddressIsEqual ignores ports."
  },
  {
   "property": "C36",
   "status": "partial",
   "theorems": [
    "C36_upperPowerOfTwo_partial",
    "C36_upperPowerOfTwo_wrong_above_2_32",
    "C36_ispow2",
    "C36_right_exactly"
   ],
   "note": "Holds for arguments up to 2^32; a negative theorem shows the 64-bit failure, and C36_right_exactly says for which arguments up to 2^63 the result is right."
  },
  {
   "property": "C37",
   "status": "proved",
   "theorems": [
    "C37_stringCopy",
    "C37_stringCopy_zero_size_is_undefined",
    "C37_strlcpy",
    "C37_strlcpy_zero",
    "C37_strlcat",
    "C37_strlcat_full",
    "C37_stringAppend",
    "C37_stringAppend_zero_size_unbounded",
    "C37_stpncpy",
    "C37_notMatchingSetCapped"
   ],
   "note": "Full statement; simplifications as said in the comments of the model and in DESIGN.md."
  },
  {
   "property": "C38",
   "status": "proved",
   "theorems": [
    "C38_replaced_unique",
    "C38_searchAndReplace",
    "C38_unchanged",
    "C38_stringReplace",
    "C38_zero_is_ambiguous"
   ],
   "note": "Full statement; simplifications as said in the comments of the model and in DESIGN.md."
  },
  {
   "property": "C39",
   "status": "partial",
   "theorems": [
    "C39_substring_partial",
    "C39_single_character_is_null",
    "C39_negative_start_ignores_length",
    "C39_dropping_too_much",
    "C39_start_before_string",
    "C39_every_call",
    "C39_empty_string_read_beyond_negated"
   ],
   "note": "The full claim is false of the code; negative theorems: one-character slices give NULL, a negative start with a positive length returns the whole tail, dropping more than the length returns the string, a start before the beginning reads out of bounds, and so does a length of two or more for the empty string. C39_every_call settles every string, start and length."
  },
  {
   "property": "C40",
   "status": "proved",
   "theorems": [
    "C40_numeral_unique",
    "C40_toLong",
    "C40_toUlong",
    "C40_roundtrip",
    "C40_decimalToLong",
    "C40_decimal_no_integer_part",
    "C40_toLongDefault",
    "C40_toUlongDefault",
    "C40_toInt64Default",
    "C40_exit_variants",
    "C40_unsafe_accepts_anything_negated"
   ],
   "note": "Full statement; simplifications as said in the comments of the model and in DESIGN.md."
  },
  {
   "property": "C41",
   "status": "proved",
   "theorems": [
    "C41_countTokens",
    "C41_getToken",
    "C41_getToken_null",
    "C41_string2StringArray",
    "C41_freeStringArray",
    "C41_array_freed"
   ],
   "note": "Full statement; simplifications as said in the comments of the model and in DESIGN.md."
  },
  {
   "property": "C42",
   "status": "proved",
   "theorems": [
    "C42_chop",
    "C42_stripTrailingNewline",
    "C42_chop_size_max",
    "C42_trimWhitespace",
    "C42_trimCSVLineCRLF",
    "C42_trimStrict",
    "C42_closeHole"
   ],
   "note": "Full statement; simplifications as said in the comments of the model and in DESIGN.md."
  },
  {
   "property": "C43",
   "status": "partial",
   "theorems": [
    "C43_toUpperStr_any",
    "C43_toLowerStr",
    "C43_toUpperStr_partial",
    "C43_toUpper_cuts_at_blank",
    "C43_case_laws"
   ],
   "note": "ToUpperStrInplace is proved on the ASCII domain (the other case mappings for all strings); C43_toUpperStr_any says what the code does to every string: a blank becomes a NUL, other bytes are shifted by 32."
  },
  {
   "property": "C44",
   "status": "proved",
   "theorems": [
    "C44_canonifyInPlace",
    "C44_canon_laws",
    "C44_stringCanonify"
   ],
   "note": "Full statement; simplifications as said in the comments of the model and in DESIGN.md."
  },
  {
   "property": "C45",
   "status": "proved",
   "theorems": [
    "C45_compare",
    "C45_antisymmetric",
    "C45_equal_not_transitive"
   ],
   "note": "A further theorem shows that version equality is not transitive, because missing components are not compared."
  },
  {
   "property": "C46",
   "status": "proved",
   "theorems": [
    "C46_write",
    "C46_write_terminates",
    "C46_read",
    "C46_read_terminates"
   ],
   "note": "FullWrite and FullRead against every schedule of short transfers and errors, with a termination theorem."
  },
  {
   "property": "C47",
   "status": "partial",
   "theorems": [
    "C47_read_from_fd_partial",
    "C47_any_file",
    "C47_terminates",
    "C47_nul_bytes_dropped"
   ],
   "note": "C47_any_file settles every file, NUL bytes included. Proved for files without NUL bytes; a theorem shows that a NUL byte truncates the returned data."
  },
  {
   "property": "C48",
   "status": "proved",
   "theorems": [
    "C48_pathAppend",
    "C48_strCat",
    "C48_strCat_overflown",
    "C48_strCatDelim",
    "C48_concatenate",
    "C48_concatenate_none",
    "C48_joinAlloc"
   ],
   "note": "Full statement; simplifications as said in the comments of the model and in DESIGN.md."
  },
  {
   "property": "C49",
   "status": "partial",
   "theorems": [
    "C49_escapeCharCopy_partial",
    "C49_escaped_pair_overflows"
   ],
   "note": "The full claim is false of the code: a negative theorem shows the destination overflow; the positive theorem covers the inputs that fit."
  },
  {
   "property": "C50",
   "status": "partial",
   "theorems": [
    "SafeOpen.C50_every_component_checked_partial",
    "SafeOpen.C50_no_descriptor_leaks",
    "SafeOpen.C50_failure_changes_nothing",
    "SafeOpen.C50_only_the_returned_file_is_changed",
    "SafeOpen.C50_trusted_path_opens",
    "SafeOpen.C50_untrusted_component_refused",
    "SafeOpen.C50_missing_file_created",
    "SafeOpen.C50_missing_component_reported",
    "SafeOpen.C50_exclusive_creation_refuses_existing",
    "SafeOpen.C50_nested_link_negated",
    "SafeOpen.C50_race_negated",
    "SafeOpen.C50_uid_wrong_negated",
    "SafeOpen.C50_root_ignores_flags_negated"
   ],
   "note": "With others changing the filesystem arbitrarily between system calls: every component was looked at, opened and looked at again and satisfies the ownership rule as seen (effective uid 0 or 1); descriptors never leak; only the returned file is created or truncated. Undisturbed: trusted paths open the denoted object, untrusted ones give ENOLINK. As stated the property is false: the check and the open race, only the first of nested links is checked, the uid is stored in a bool, and flags are ignored for / (negative theorems with witnesses)."
  },
  {
   "property": "C51",
   "status": "proved",
   "theorems": [
    "C51_lifo_once",
    "C51_register_during_cleanup_deadlocks"
   ],
   "note": "Holds when no cleanup function registers another one; a theorem shows that doing so deadlocks."
  },
  {
   "property": "C52",
   "status": "proved",
   "theorems": [
    "C52_bytesToHex",
    "C52_hex_injective",
    "C52_hashPrintSafe",
    "C52_printable",
    "C52_skipHashType",
    "C52_hashesMatch"
   ],
   "note": "Full statement; simplifications as said in the comments of the model and in DESIGN.md."
  },
  {
   "property": "C53",
   "status": "partial",
   "theorems": [
    "C53_line_partial",
    "C53_trailing_backslash_reads_past_end",
    "C53_reads_past_the_end_exactly"
   ],
   "note": "Proved for every line except values ending in a lone backslash; C53_reads_past_the_end_exactly settles those: in a block of just the line's size the code leaves the block on exactly these lines (lines that end in white space excepted there, where what it reads is the rest of the line)."
  },
  {
   "property": "C54",
   "status": "proved",
   "theorems": [
    "C54_refcount_is_the_list_of_owners"
   ],
   "note": "Full statement; simplifications as said in the comments of the model and in DESIGN.md."
  },
  {
   "property": "C55",
   "status": "proved",
   "theorems": [
    "C55_unsignedModulus",
    "C55_unsignedModulus_overflow",
    "C55_unsignedModulus_negative"
   ],
   "note": "Full statement; simplifications as said in the comments of the model and in DESIGN.md."
  },
  {
   "property": "C56",
   "status": "proved",
   "theorems": [
    "C56_addSplit_pieces",
    "C56_toBuffer_joins",
    "C56_addSplit_adds_exactly_the_pieces"
   ],
   "note": "Full statement; simplifications as said in the comments of the model and in DESIGN.md."
  },
  {
   "property": "C57",
   "status": "proved",
   "theorems": [
    "C57_equal_iff_same_contents"
   ],
   "note": "Full statement; simplifications as said in the comments of the model and in DESIGN.md."
  },
  {
   "property": "C58",
   "status": "proved",
   "theorems": [
    "C58_tree_destroys_exactly_once"
   ],
   "note": "Full statement; simplifications as said in the comments of the model and in DESIGN.md."
  },
  {
   "property": "C59",
   "status": "proved",
   "theorems": [
    "C59_wait_empty_is_woken"
   ],
   "note": "Full statement; simplifications as said in the comments of the model and in DESIGN.md."
  },
  {
   "property": "C60",
   "status": "proved",
   "theorems": [
    "C60_compare_is_lexicographic",
    "C60_order_depends_on_mode"
   ],
   "note": "Full statement; simplifications as said in the comments of the model and in DESIGN.md."
  },
  {
   "property": "C61",
   "status": "partial",
   "theorems": [
    "C61_csv_parsing_is_memory_safe_partial",
    "C61_quote_blank_separator_is_not_terminated",
    "C61_misplaced_final_quote_is_accepted",
    "CsvParser.C61_uninitialised_read_negated"
   ],
   "note": "Partial: texts containing quote, one blank, separator are excluded; a theorem shows that the code reads uninitialised memory there. C61_uninitialised_read_negated: so it does for every text with such a place after a field that is longer than all before it."
  },
  {
   "property": "C62",
   "status": "proved",
   "theorems": [
    "C62_html_rendering_reads_back"
   ],
   "note": "Full statement; simplifications as said in the comments of the model and in DESIGN.md."
  },
  {
   "property": "C63",
   "status": "proved",
   "theorems": [
    "C63_copyTruncateAndHash"
   ],
   "note": "Full statement; simplifications as said in the comments of the model and in DESIGN.md."
  },
  {
   "property": "C64",
   "status": "proved",
   "theorems": [
    "C64_basename",
    "C64_getQuoted",
    "C64_single_quote_is_not_quoted"
   ],
   "note": "Full statement; simplifications as said in the comments of the model and in DESIGN.md."
  },
  {
   "property": "C65",
   "status": "proved",
   "theorems": [
    "C65_endsWith",
    "C65_endsWithCase",
    "C65_startsWith"
   ],
   "note": "Full statement; simplifications as said in the comments of the model and in DESIGN.md."
  },
  {
   "property": "C66",
   "status": "proved",
   "theorems": [
    "C66_compare",
    "C66_compare_variants",
    "C66_equal",
    "C66_order_laws",
    "C66_isStrIn",
    "C66_matchesOption",
    "C66_matchesOption_assert"
   ],
   "note": "Full statement; simplifications as said in the comments of the model and in DESIGN.md."
  },
  {
   "property": "C67",
   "status": "proved",
   "theorems": [
    "C67_replaceChar",
    "C67_replaceTrailingChar",
    "C67_memcchr",
    "C67_scanPastChars"
   ],
   "note": "Full statement; simplifications as said in the comments of the model and in DESIGN.md."
  },
  {
   "property": "C68",
   "status": "proved",
   "theorems": [
    "C68_class_tests"
   ],
   "note": "Full statement; simplifications as said in the comments of the model and in DESIGN.md."
  },
  {
   "property": "C69",
   "status": "proved",
   "theorems": [
    "C69_file_round_trip",
    "C69_bad_prefix_undefined",
    "C69_short_prefix_undefined"
   ],
   "note": "Two negative theorems: malformed and short prefixes lead to undefined behaviour."
  },
  {
   "property": "C70",
   "status": "proved",
   "theorems": [
    "C70_split",
    "C70_split_unique",
    "C70_contains_length"
   ],
   "note": "Full statement; simplifications as said in the comments of the model and in DESIGN.md."
  },
  {
   "property": "C71",
   "status": "partial",
   "theorems": [
    "C71_json5_escape_partial",
    "C71_nul_before_digit"
   ],
   "note": "The bytes denoted are always right in a grammar without JSON5's lookahead rule; that rule (no decimal digit after \\0) is violated for a NUL followed by a digit (negative theorem)."
  },
  {
   "property": "C72",
   "status": "partial",
   "theorems": [
    "C72_every_text_is_read",
    "C72_every_text_accepted",
    "C72_unicode_escapes_kept_negated",
    "C72_rfc_text_accepted_partial",
    "C72_strings_unescaped_twice",
    "C72_malformed_accepted"
   ],
   "note": "Accepted and denoted correctly for every text whose string values contain no backslash before one of the escape letters; false otherwise (unescaped twice), and malformed texts are accepted (negative theorems). Every text of the RFC, with all escapes, is accepted (C72_every_text_accepted) and read with LibString for its strings (C72_every_text_is_read); \\u escapes are kept as written (negative theorem)."
  },
  {
   "property": "C73",
   "status": "proved",
   "theorems": [
    "C73_same_document_same_text"
   ],
   "note": "Full statement; simplifications as said in the comments of the model and in DESIGN.md."
  },
  {
   "property": "C74",
   "status": "proved",
   "theorems": [
    "C74_nothing_left_after_all_lists_destroyed",
    "C74_every_node_belongs_to_a_live_list"
   ],
   "note": "Full statement; simplifications as said in the comments of the model and in DESIGN.md."
  },
  {
   "property": "C75",
   "status": "proved",
   "theorems": [
    "C75_iterator_is_a_cursor",
    "C75_iterator_refused_after_remove"
   ],
   "note": "Full statement; simplifications as said in the comments of the model and in DESIGN.md."
  },
  {
   "property": "C76",
   "status": "partial",
   "theorems": [
    "Compat.C76_memmem_partial",
    "Compat.C76_memmem_empty_negated",
    "Compat.C76_memrchr",
    "Compat.C76_strstr_partial",
    "Compat.C76_strcasestr_partial",
    "Compat.C76_strstr_empty_negated",
    "Compat.C76_strrstr_partial",
    "Compat.C76_strrstr_misses_the_beginning_negated",
    "Compat.C76_strchrnul"
   ],
   "note": "memmem, strstr and strcasestr miss the empty needle in an empty haystack; strrstr never finds an occurrence at offset 0 (negative theorems). Everything else is proved."
  },
  {
   "property": "C77",
   "status": "proved",
   "theorems": [
    "Compat.C77_strnlen",
    "Compat.C77_strndup",
    "Compat.C77_strdup",
    "Compat.C77_memdup",
    "Compat.C77_stpncpy"
   ],
   "note": "Full statement; simplifications as said in the comments of the model and in DESIGN.md."
  },
  {
   "property": "C78",
   "status": "partial",
   "theorems": [
    "Compat.C78_strcasecmp_zero",
    "Compat.C78_strcasecmp_order_partial",
    "Compat.C78_strcasecmp_high_bytes_first_not_unsigned",
    "Compat.C78_strncasecmp",
    "Compat.C78_strcasecmp_antisymm",
    "C78_strcasecmp_order_all"
   ],
   "note": "The order agrees for ASCII strings only: bytes from 0x80 on sort before all others because char is signed (negative theorem). Equality, antisymmetry and the length limit hold for all strings; C78_strcasecmp_order_all gives the order of all strings."
  },
  {
   "property": "C79",
   "status": "proved",
   "theorems": [
    "Compat.C79_strsep_all",
    "Compat.C79_strsep_null"
   ],
   "note": "Full statement; simplifications as said in the comments of the model and in DESIGN.md."
  },
  {
   "property": "C80",
   "status": "proved",
   "theorems": [
    "Compat.C80_getline_some",
    "Compat.C80_getline_eof",
    "Compat.C80_getline_all"
   ],
   "note": "A stream error and lines of SSIZE_MAX bytes are not modelled; allocation succeeds."
  },
  {
   "property": "C81",
   "status": "partial",
   "theorems": [
    "Mustache.C81_total_partial",
    "Mustache.C81_total_any",
    "Mustache.C81_delimiter_overflow",
    "Mustache.C81_second_delimiter_overflow"
   ],
   "note": "Templates that change the delimiters ({{=) and have a blank-free word of ten or more bytes are excluded: a ten-byte delimiter overflows its array (negative theorem). Order of object members may change because serialising sorts."
  },
  {
   "property": "C82",
   "status": "proved",
   "theorems": [
    "Mustache.C82_render",
    "Mustache.C82_render_any",
    "Mustache.C82_unordered_witness",
    "Mustache.C82_unclosed"
   ],
   "note": "Default delimiters, output buffer in C-string mode. Serialising objects whose members are not in key order reorders them during iteration (negative witness). The text of a real number is the C library's (a parameter)."
  },
  {
   "property": "C83",
   "status": "partial",
   "theorems": [
    "Mustache.C83_lexical_scopes",
    "Mustache.C83_flat_lexical_partial",
    "Mustache.C83_nested_lexical_partial",
    "Mustache.C83_listless_lexical",
    "Mustache.C83_not_lexical",
    "Mustache.C83_row_leak",
    "Mustache.C83_hidden_shown"
   ],
   "note": "False in general: a section over a list leaves the list on the scope stack, so the enclosing section's closing tag removes that instead of its own element (negative theorems). Proved (C83_nested_lexical_partial) for sections rendered once nested anyhow, also in sections over lists, and (C83_listless_lexical) for every template over data without lists that does not use @."
  },
  {
   "property": "C84",
   "status": "proved",
   "theorems": [
    "Mustache.C84_no_markup",
    "Mustache.C84_amp",
    "Mustache.C84_injective",
    "Mustache.C84_variable",
    "Mustache.C84_plain",
    "Mustache.C84_comments"
   ],
   "note": "Full statement; simplifications as said in the comments of the model and in DESIGN.md."
  },
  {
   "property": "C85",
   "status": "proved",
   "theorems": [
    "C85_pton",
    "C85_ntop",
    "C85_round_trip"
   ],
   "note": "Both directions for all strings and addresses."
  },
  {
   "property": "C86",
   "status": "proved",
   "theorems": [
    "C86_ntop",
    "C86_canon_unique"
   ],
   "note": "Canonical text for all addresses; bestRun checked over the 256 zero patterns by kernel computation and lifted to all words."
  },
  {
   "property": "C87",
   "status": "proved",
   "theorems": [
    "C87_accepts",
    "C87_exact",
    "C87_round_trip",
    "C87_groups_lost",
    "C87_trailing_colon",
    "C87_not_compiled_in"
   ],
   "note": "Exact accepted language, all RFC 4291 text forms, round trip; deviations exhibited as theorems."
  },
  {
   "property": "C88",
   "status": "proved",
   "theorems": [
    "C88_accepts_exactly",
    "C88_rejects",
    "C88_unambiguous"
   ],
   "note": "Exactness in both directions (soundness by induction on the parser, completeness by induction on the grammar), rejection of everything else, unambiguity. No lookup function. Strings ending in a backslash are covered by C25."
  },
  {
   "property": "C89",
   "status": "proved",
   "theorems": [
    "C89_sparse_copy",
    "C89_needs_fresh_destination"
   ],
   "note": "Kernel file model (data, offset; write, lseek, ftruncate), arbitrary schedules and kill points. fsync only as a call that may fail; durability across a machine crash is not modelled. The copy theorem is for a fresh destination; C89_needs_fresh_destination shows what happens otherwise."
  },
  {
   "property": "C90",
   "status": "proved",
   "theorems": [
    "C90_file_copy",
    "C90_copy_to_itself"
   ],
   "note": "stdio streams by their contract (short transfers, sticky errors, arbitrary flushing); two open files identified by number, so aliasing is expressible; opening is the subject of C73 and following."
  },
  {
   "property": "C91",
   "status": "proved",
   "theorems": [
    "C91_read_lines",
    "C91_total",
    "C91_null_buffer"
   ],
   "note": "Built on the getline model of C80. Lines with NUL bytes are cut as the header documents."
  },
  {
   "property": "C92",
   "status": "proved",
   "theorems": [
    "C92_mutual_exclusion",
    "C92_attempt",
    "C92_progress",
    "C92_unlock",
    "C92_check",
    "C92_two_locks",
    "C92_descriptor_leak"
   ],
   "note": "Transition system of any number of processes over a POSIX record lock model; inductive invariant tying the kernel's lock table to what the calls returned. Threads inside one process and Windows are not modelled. Two findings as theorems (C92_two_locks, C92_descriptor_leak for every n)."
  },
  {
   "property": "C93",
   "status": "proved",
   "theorems": [
    "C93_select",
    "C93_bad_index_exits"
   ],
   "note": "Induction on the path for API-built documents; C93_bad_index_exits is the finding that an empty or huge all-digit position ends the process, for every array."
  },
  {
   "property": "C94",
   "status": "proved",
   "theorems": [
    "C94_walk"
   ],
   "note": "Structural induction over the nested element type; visitors are arbitrary functions over an arbitrary state but do not change the tree."
  },
  {
   "property": "C95",
   "status": "proved",
   "theorems": [
    "C95_iterator_is_cursor",
    "C95_current_type_before_first"
   ],
   "note": "Simulation between iterator and cursor for every list of calls. The current type before the first step is undefined behaviour (theorem)."
  },
  {
   "property": "C96",
   "status": "proved",
   "theorems": [
    "C96_array_is_list"
   ],
   "note": "Refinement through the model of sequence.c."
  },
  {
   "property": "C97",
   "status": "proved",
   "theorems": [
    "C97_read_back",
    "C97_default"
   ],
   "note": "Through C40 (strtol) and the decimal printer."
  },
  {
   "property": "C98",
   "status": "proved",
   "theorems": [
    "C98_one_text_for_every_buffer"
   ],
   "note": "All conversions, also those of floating-point numbers; len is unbounded."
  },
  {
   "property": "C99",
   "status": "partial",
   "theorems": [
    "C99_text_is_that_of_the_standard_partial",
    "C99_count_stored",
    "C99_too_large",
    "C99_grouped",
    "C99_pointer",
    "C99_zero_with_precision_zero",
    "C99_char_width_ignored",
    "C99_least_intmax_undefined",
    "C99_reads_past_precision",
    "C99_separators_shorten",
    "C99_hex_precision_undefined"
   ],
   "note": "Partial: proved for d i u o x X c s with all flags, widths, precisions and modifiers in the C locale, except the listed deviations of the code, each shown by a finding theorem (precision 0 of value 0, %c with width, least intmax_t, reading past the precision, separators with precision, '#' with precision INT_MAX). %n, too large fields and thousands separators (with a width) have theorems of their own. %p has a theorem of its own (C99_pointer). Floating point: C132."
  },
  {
   "property": "C100",
   "status": "proved",
   "theorems": [
    "C100_asprintf"
   ],
   "note": "malloc may fail."
  },
  {
   "property": "C101",
   "status": "partial",
   "theorems": [
    "C101_reading_partial",
    "C101_deterministic",
    "C101_prefix_forgotten",
    "C101_byte_255_ends"
   ],
   "note": "Proved for every vector; hypotheses: no option is declared as byte 255 or long value -1 (it would be taken for the end), and with a leading '+' or '-' in the option string that character is not used as an option and no ':' follows it, because the code skips the character in the first call only (negative theorems)."
  },
  {
   "property": "C102",
   "status": "proved",
   "theorems": [
    "C102_words_kept",
    "C102_call_permutes",
    "C102_options_first"
   ],
   "note": "Permutation by every single call from any state; order of options and operands for option strings without '+' or '-' in front."
  },
  {
   "property": "C103",
   "status": "partial",
   "theorems": [
    "PcreWrap.C103_replaced_partial",
    "PcreWrap.C103_total",
    "PcreWrap.C103_deterministic",
    "PcreWrap.C103_disjoint",
    "PcreWrap.C103_text_behind_uninitialised",
    "PcreWrap.C103_text_before_uninitialised",
    "PcreWrap.C103_nul_overflow",
    "PcreWrap.C103_many_references",
    "PcreWrap.C103_bad_reference_spoils_next",
    "PcreWrap.C103_group_33",
    "PcreWrap.C103_number_overflow",
    "PcreWrap.C103_empty_match_twice",
    "PcreWrap.C103_many_groups_ignored"
   ],
   "note": "The PCRE library is a parameter constrained by its documented contract. Proved for replacements the code handles (at most 32 references, to groups up to 32, no NUL, no $` or $'); the unrestricted statement is false: findings C103_* exhibit uninitialised bytes, an overflow of the result, an array overrun, a poisoned reference, and empty matches found twice."
  },
  {
   "property": "C104",
   "status": "proved",
   "theorems": [
    "PcreWrap.C104_plain",
    "PcreWrap.C104_quoted",
    "PcreWrap.C104_plain_replaced",
    "PcreWrap.C104_no_match"
   ],
   "note": "C104_plain and C104_quoted are about the specified syntax, which C103 ties to the code; C104_plain_replaced and C104_no_match are about the code."
  },
  {
   "property": "C105",
   "status": "proved",
   "theorems": [
    "C105_cursor",
    "C105_written_lists_are_unshared",
    "C105_refused",
    "C105_has_next_reads_freed_node",
    "C105_shared_list_destroys_the_copy",
    "C105_shared_list_borrows_the_copys_nodes"
   ],
   "note": "The hypothesis that the list is not shared is needed and met by every list written to since it was copied (C105_written_lists_are_unshared). Findings: on a shared list the first edit gives the list new nodes while the iterator stays on the old ones, so Remove frees the copy's node (C105_shared_list_destroys_the_copy) and Prepend leaves the list on borrowed nodes (C105_shared_list_borrows_the_copys_nodes); HasNext and HasPrevious of an invalidated iterator read a freed node (C105_has_next_reads_freed_node)."
  },
  {
   "property": "C106",
   "status": "partial",
   "theorems": [
    "SafeOpen.C106_dirname_basename",
    "SafeOpen.C106_lchown_checked_partial",
    "SafeOpen.C106_chown_checked_partial",
    "SafeOpen.C106_owner_set",
    "SafeOpen.C106_missing_reported",
    "SafeOpen.C106_untrusted_link_refused",
    "SafeOpen.C106_link_leaf_negated"
   ],
   "note": "As stated false for safe_chown: it finds the directory of what a link leads to and then looks there for the name of the link itself, so another file is given away or ENOENT is reported (C106_link_leaf_negated). Proved: at most one object changed, in a directory reached as checked, under the path's own last name; descriptors restored; on quiet filesystems a trusted directory part makes both succeed on what is not a link (safe_lchown also on links), untrusted links and missing names are refused with nothing changed. Effective uid 0 or 1, as for C50."
  },
  {
   "property": "C107",
   "status": "partial",
   "theorems": [
    "SafeOpen.C107_chmod_checked_partial",
    "SafeOpen.C107_mode_set",
    "SafeOpen.C107_link_leaf_negated"
   ],
   "note": "The same finding: through a link, existence and the FIFO test are looked up under the link's own name in the target's directory (C107_link_leaf_negated). Effective uid 0 or 1. Modes are not part of the filesystem model; which object's mode was set, and at which system call, is."
  },
  {
   "property": "C108",
   "status": "partial",
   "theorems": [
    "SafeOpen.C108_tree_deleted_partial",
    "SafeOpen.C108_missing_is_success",
    "SafeOpen.C108_untrusted_link_refused",
    "SafeOpen.C108_no_descriptor_leaks",
    "SafeOpen.C108_path_through_tree_negated",
    "SafeOpen.C108_race_negated",
    "SafeOpen.C108_truncated_path_negated"
   ],
   "note": "Exact on quiet filesystems for a trusted path (euid 0 or 1, no trailing slash, paths below 4096 bytes, enough descriptors). As stated false: a path that leads through the tree itself (/t/e/..) reports success with entries left (C108_path_through_tree_negated); the owner of a directory in the tree can make root remove a file outside it (C108_race_negated); paths are cut at 4095 bytes without a check (C108_truncated_path_negated)."
  },
  {
   "property": "C109",
   "status": "partial",
   "theorems": [
    "SafeOpen.C109_modes_mean_what_they_say",
    "SafeOpen.C109_other_characters_end_the_program",
    "SafeOpen.C109_fopen_checked_partial",
    "SafeOpen.C109_fopen_opens",
    "SafeOpen.C109_creat",
    "SafeOpen.C109_chdir_checked_partial",
    "SafeOpen.C109_chdir_goes_there",
    "SafeOpen.C109_rw_empties_the_file_negated",
    "SafeOpen.C109_fopen_leaves_no_descriptor"
   ],
   "note": "Effective uid 0 or 1, as for C50. Outside the standard modes: other characters end the program before anything is touched; letters in the wrong place are accepted by the mode loop, so 'rw' empties the file and then fails with EINVAL (C109_rw_empties_the_file_negated). fdopen is glibc's; modes longer than five characters are not covered."
  },
  {
   "property": "C110",
   "status": "partial",
   "theorems": [
    "Logging.C110_messages_go_where_the_levels_say",
    "Logging.C110_wouldLog",
    "Logging.C110_raw_partial",
    "Logging.C110_debug",
    "Logging.C110_debug_module_range",
    "Logging.C110_raw_skips_the_hook_negated",
    "Logging.C110_nothing_ends_the_program_negated"
   ],
   "note": "Calls of different threads run one after another (the unsynchronised read of the global level is not modelled as a race). Levels 0 to 6; Log(LOG_LEVEL_NOTHING) ends the program and WouldLog says true for it (C110_nothing_ends_the_program_negated). LogRaw is proved when not only the hook's level asks for the message: in that case it does not call the hook although Log would (C110_raw_skips_the_hook_negated). Syslog lines are cut at 4095 bytes."
  },
  {
   "property": "C111",
   "status": "proved",
   "theorems": [
    "Logging.C111_level_from_string",
    "Logging.C111_nothing",
    "Logging.C111_level_argument",
    "Logging.C111_round_trip"
   ],
   "note": "Full statement; simplifications as said in the comments of the model and in DESIGN.md."
  },
  {
   "property": "C112",
   "status": "proved",
   "theorems": [
    "Logging.C112_enable_modules",
    "Logging.C112_every_string_is_a_list",
    "Logging.C112_help_after_others_negated"
   ],
   "note": "Finding: modules listed before 'help' are enabled although help is said to enable nothing (C112_help_after_others_negated)."
  },
  {
   "property": "C113",
   "status": "proved",
   "theorems": [
    "Logging.C113_byte_counts"
   ],
   "note": "Full statement; simplifications as said in the comments of the model and in DESIGN.md."
  },
  {
   "property": "C114",
   "status": "partial",
   "theorems": [
    "Hash.C114_hashNew",
    "Hash.C114_descriptor_partial",
    "Hash.C114_hashString",
    "Hash.C114_hashFile_partial",
    "Hash.C114_unsupported",
    "Hash.C114_read_error_overread_negated",
    "Hash.C114_file_read_error_negated",
    "Hash.C114_unreadable_files_match_negated"
   ],
   "note": "OpenSSL is a parameter (digest functions of the documented lengths; update appends). As stated false for failing reads: HashNewFromDescriptor hands read's -1 to EVP_DigestUpdate as a length (C114_read_error_overread_negated); HashFile silently gives the digest of the part read before an error (C114_file_read_error_negated), and zeros for files it cannot open, which match each other (C114_unreadable_files_match_negated). Everything else is proved for reads that succeed."
  },
  {
   "property": "C115",
   "status": "proved",
   "theorems": [
    "Hash.C115_equal",
    "Hash.C115_copy",
    "Hash.C115_names"
   ],
   "note": "Full statement; simplifications as said in the comments of the model and in DESIGN.md."
  },
  {
   "property": "C116",
   "status": "proved",
   "theorems": [
    "Hash.C116_keys",
    "Hash.C116_bytes"
   ],
   "note": "Keys whose modulus or exponent is NULL are passed on to BN_bn2bin, which does not accept them; not covered."
  },
  {
   "property": "C117",
   "status": "proved",
   "theorems": [
    "TStack.C117_linearizable",
    "TStack.C117_progress",
    "TStack.C117_popped_was_pushed"
   ],
   "note": "Model at the granularity of single memory accesses, the mutex being an instruction of each function; linearizability defined in Spec/Linearizable.lean without reference to the model. Creation and destruction of the stack are outside the concurrent part."
  },
  {
   "property": "C118",
   "status": "partial",
   "theorems": [
    "PassFile.C118_channel",
    "PassFile.C118_any_peer_partial",
    "PassFile.C118_second_descriptor_leaks_negated",
    "PassFile.C118_long_text_negated",
    "PassFile.C118_verbose_overread_negated"
   ],
   "note": "The channel property is proved in full for texts of at most 1023 bytes (the documented limit). Against an arbitrary peer (partial): findings with witnesses - a second attached descriptor leaks (release build), texts over 1023 bytes are not truncated as documented but spill into the next text, at verbose level an unterminated message is read past the buffer. The MinGW implementation is not modelled."
  },
  {
   "property": "C119",
   "status": "partial",
   "theorems": [
    "RegexMatch.C119_match_partial",
    "RegexMatch.C119_answer",
    "RegexMatch.C119_full_partial",
    "RegexMatch.C119_compare",
    "RegexMatch.C119_partialMatch",
    "RegexMatch.C119_ten_groups_negated",
    "RegexMatch.C119_captures",
    "RegexMatch.C119_captureData"
   ],
   "note": "PCRE is a parameter (what it finds in a text; its documented ways of reporting it). Partial because of ten or more groups: see C119_ten_groups_negated."
  },
  {
   "property": "C120",
   "status": "partial",
   "theorems": [
    "KeyValue.C120_parse_partial",
    "KeyValue.C120_numeric_partial",
    "KeyValue.C120_long_line_negated",
    "KeyValue.C120_any_text",
    "KeyValue.C120_any_numeric"
   ],
   "note": "C120_any_text settles every text (any line length, NUL bytes, read errors anywhere) against a description of the pieces read. The claim as stated is partial: lines of at most 1023 bytes, no NUL bytes; longer lines are split (finding C120_long_line_negated). sscanf is a parameter for the numeric variant."
  },
  {
   "property": "C121",
   "status": "partial",
   "theorems": [
    "SetJson.C121_array_to_set",
    "SetJson.C121_other_arrays_partial",
    "SetJson.C121_not_an_array",
    "SetJson.C121_round_trip",
    "SetJson.C121_nested_array_negated",
    "SetJson.C121_every_element",
    "SetJson.C121_flat_arrays"
   ],
   "note": "Partial because an array nested as first item is accepted (acknowledged in the source, C121_nested_array_negated); C121_every_element settles every JSON element."
  },
  {
   "property": "C122",
   "status": "partial",
   "theorems": [
    "Yaml.C122_read_partial",
    "Yaml.C122_no_abort",
    "Yaml.C122_leading_number_negated",
    "Yaml.C122_integers_negated",
    "Yaml.C122_bool_tag_negated",
    "Yaml.C122_alias_negated",
    "Yaml.C122_empty_negated",
    "Yaml.C122_error_negated",
    "Yaml.C122_complex_key_negated"
   ],
   "note": "libyaml is represented by the event sequence it delivers. Partial: plain scalars that begin with a number and go on (GoodValue) and integers that JsonCopy changes are excluded - these are findings with witnesses: leading_number, integers (3000000000 becomes negative, 1e5 ends the process), bool_tag, alias, empty document (read outside the array), error (a syntax error is not reported), complex_key (ends the process)."
  },
  {
   "property": "C123",
   "status": "partial",
   "theorems": [
    "C123_env_file_partial"
   ],
   "note": "Partial: lines whose value ends in a lone backslash are excluded (they make ParseEnvLine read beyond the line, finding of C53)."
  },
  {
   "property": "C124",
   "status": "partial",
   "theorems": [
    "C124_csv_file_partial",
    "C124_records",
    "C124_written_file"
   ],
   "note": "C124_written_file has no such restriction; for arbitrary files partial: no quote followed by one blank and a separator (finding of C61)."
  },
  {
   "property": "C125",
   "status": "partial",
   "theorems": [
    "C125_json_file_partial",
    "C125_no_file",
    "C125_yaml_file_partial",
    "C125_kind_of_name",
    "C125_kind_of_suffix",
    "C125_names",
    "C125_names_round_trip"
   ],
   "note": "Partial as the parts it is made of: no NUL bytes (C47), JSON by the grammar the parser accepts (C88) and not ending in a backslash (C25), YAML as in C122 with libyaml as parameter."
  },
  {
   "property": "C126",
   "status": "proved",
   "theorems": [
    "TDT.C126_linearizable",
    "TDT.C126_progress"
   ],
   "note": "Programs of single accesses (Model/DequeThreads.lean) over a generic mutex/condition-variable machine (Model/Monitor.lean); linearizability by a forward simulation whose per-section obligations are discharged from the sequential lemmas of C16."
  },
  {
   "property": "C127",
   "status": "proved",
   "theorems": [
    "TDT.C127_no_lost_wakeup",
    "TDT.C127_wait_empty_is_woken",
    "TDT.C127_zero_items_strands_a_consumer_negated"
   ],
   "note": "Counting argument: per condition variable a credit bounded by the threads woken and not yet through. The claim is false for PopN of zero items: C127_zero_items_strands_a_consumer_negated."
  },
  {
   "property": "C128",
   "status": "proved",
   "theorems": [
    "TQF.C128_linearizable",
    "TQF.C128_progress"
   ],
   "note": "As C126, for threaded_queue.c, refining the lock-level model of C14."
  },
  {
   "property": "C129",
   "status": "partial",
   "theorems": [
    "TQF.C129_no_lost_wakeup_partial",
    "TQF.C129_wait_empty_is_woken",
    "TQF.C129_pushN_strands_a_consumer_negated",
    "TQF.C129_zero_items_strands_a_consumer_negated"
   ],
   "note": "As C127; false for PushN of several items and PopN of zero items, both shown by concrete schedules."
  },
  {
   "property": "C130",
   "status": "proved",
   "theorems": [
    "At.C130_accepted",
    "At.C130_home"
   ],
   "note": "Interleaving model of generic_at.c with an adversarial kernel (Model/GenericAt.lean); the specification is an acceptor of event logs (Spec/GenericAt.lean). errno is not modelled. The program's threads must not use relative paths or chdir outside these functions while a call is under way (the source says so too)."
  },
  {
   "property": "C131",
   "status": "proved",
   "theorems": [
    "At.C131_progress",
    "At.C131_nine_steps"
   ],
   "note": "Needs that pthread_mutex_lock succeeds, as the code assumes."
  },
  {
   "property": "C132",
   "status": "partial",
   "theorems": [
    "C132_float_text_is_that_of_the_standard_partial",
    "C132_digits_determined",
    "C132_large_numbers_negated",
    "C132_negative_zero_negated",
    "C132_hexadecimal_negated",
    "C132_precision_negated",
    "C132_two_integer_digits_negated",
    "C132_exponent_of_three_digits_negated",
    "C132_beyond_99_negated",
    "C132_below_minus_99_negated",
    "C132_significant_digits_negated"
   ],
   "note": "Proved for f/F of numbers below 2^64-1 (at most 64 significant bits) with precision at most 19, e/E/g/G of doubles that are 0 or between 1e-99 and 9e99, infinities and NaN. Missing: the ranges where the code deviates from C99 (each with a witness theorem). x87 extended precision (64-bit significand, round to nearest even) is assumed for long double, without its exponent limits."
  },
  {
   "property": "C133",
   "status": "proved",
   "theorems": [
    "JsonHeap.C133_elements_behave_like_values",
    "JsonHeap.C133_own_name_as_key_negated",
    "JsonHeap.C133_moving_an_element_negated",
    "JsonHeap.C133_replacing_a_child_negated"
   ],
   "note": "Keys given by the caller are strings of its own (the two other cases are the finding theorems). The value semantics of copy and merge is that of C24-C28 (integers through the text of JsonCopy); malloc never fails (xmalloc exits). The parser's own error paths are not part of this property."
  },
  {
   "property": "C134",
   "status": "partial",
   "theorems": [
    "JsonHeap.C134_parsed_element_is_all_there_is",
    "JsonHeap.C134_failed_parse_leaves_nothing_partial",
    "JsonHeap.C134_at_most_one_array_is_lost",
    "JsonHeap.C134_unended_string_loses_the_array_negated",
    "JsonHeap.C134_output_left_alone_negated",
    "JsonHeap.C134_file_partial",
    "JsonHeap.C134_refused_file_partial",
    "JsonHeap.C134_cut_file_negated"
   ],
   "note": "Partial because of the leaks named in the statement (findings with witnesses). No lookup function; texts the parser reads past the end of (C25) are excluded; a Writer is one block."
  },
  {
   "property": "C135",
   "status": "proved",
   "theorems": [
    "Ip.C135_v4",
    "Ip.C135_v4_port",
    "Ip.C135_procfs_v4",
    "Ip.C135_v6",
    "Ip.C135_v6_port",
    "Ip.C135_procfs_v6_reversed_negated",
    "Ip.C135_loopback_negated",
    "Ip.C135_port_uninitialised_negated",
    "Ip.C135_accepts_blanks_and_signs_negated",
    "Ip.C135_lengths",
    "Ip.C135_is_ip_address"
   ],
   "note": "The exceptions named in the statement are the _negated theorems. sscanf's %x conversion is modelled from the C standard (and glibc for an \"0x\" prefix)."
  },
  {
   "property": "C136",
   "status": "proved",
   "theorems": [
    "Environ.C136_unsetenv",
    "Environ.C136_unsetenv_unset",
    "Environ.C136_unsetenv_refused",
    "Environ.C136_setenv",
    "Environ.C136_setenv_refused",
    "Environ.C136_putenv",
    "Environ.C136_putenv_refused",
    "Environ.C136_second_survives_negated"
   ],
   "note": "The C library's setenv, putenv and getenv are modelled from POSIX. Removal is complete for environments with one entry per name (finding: a second entry survives, C136_second_survives_negated)."
  },
  {
   "property": "C137",
   "status": "proved",
   "theorems": [
    "CloseFrom.C137_via_proc",
    "CloseFrom.C137_via_range",
    "CloseFrom.C137_via_range_below_limit",
    "CloseFrom.C137_limit_negated",
    "CloseFrom.C137_pstat_closes_everything_negated"
   ],
   "note": "The exceptions are the _negated theorems. The listing is constrained by what POSIX says of readdir; one thread; AIX' F_CLOSEM is a single system call and not modelled."
  },
  {
   "property": "C138",
   "status": "proved",
   "theorems": [
    "Mkdtemp.C138_mkdtemp",
    "Mkdtemp.C138_names_count_up",
    "Mkdtemp.C138_refused",
    "Mkdtemp.C138_closes_standard_input_negated",
    "Mkdtemp.C138_bare_template_negated"
   ],
   "note": "The exceptions are the _negated theorems. The replacement strrstr is that of C76; snprintf prints six digits."
  },
  {
   "property": "C139",
   "status": "proved",
   "theorems": [
    "AddrInfo.C139_getaddrinfo",
    "AddrInfo.C139_known_host",
    "AddrInfo.C139_without_lookup",
    "AddrInfo.C139_refused",
    "AddrInfo.C139_port",
    "AddrInfo.C139_empty_list_negated",
    "AddrInfo.C139_service_name_negated",
    "AddrInfo.C139_canonname_negated",
    "AddrInfo.C139_getnameinfo",
    "AddrInfo.C139_swapped_port_negated"
   ],
   "note": "The exceptions are the _negated theorems. The name service, inet_pton, inet_ntoa and getservbyport are parameters; atoi without leading blanks."
  },
  {
   "property": "C140",
   "status": "proved",
   "theorems": [
    "Writers.C140_file_writer",
    "Writers.C140_string_writer",
    "Writers.C140_loss_is_reported",
    "Writers.C140_same_text",
    "Writers.C140_close_file",
    "Writers.C140_close_string",
    "Writers.C140_string_close",
    "Writers.C140_detach",
    "Writers.C140_wrong_kind",
    "Writers.C140_nul_character_negated",
    "Writers.C140_nul_in_format_negated",
    "Writers.C140_failed_format_count_negated"
   ],
   "note": "The exceptions (NUL characters, count of a formatted write that failed) are the _negated theorems. stdio's buffer is not modelled: bytes accepted are in the file."
  },
  {
   "property": "C141",
   "status": "proved",
   "theorems": [
    "Writers.C141_help_string",
    "Writers.C141_help_file",
    "Writers.C141_every_option_is_listed",
    "Writers.C141_flag_option_negated"
   ],
   "note": "Options have a positive value; the dangling text for value 0 is the _negated theorem."
  },
  {
   "property": "C142",
   "status": "proved",
   "theorems": [
    "KnownDirs.C142_expected_directory",
    "KnownDirs.C142_results_survive",
    "KnownDirs.C142_cached",
    "KnownDirs.C142_truncated_on_second_call_negated",
    "KnownDirs.C142_no_passwd_entry_negated",
    "KnownDirs.C142_override_cut_negated"
   ],
   "note": "POSIX build. The exceptions (too long a path on the second call, no password entry, override cut) are the _negated theorems."
  },
  {
   "property": "C143",
   "status": "proved",
   "theorems": [
    "Statistics.C143_mixture",
    "Statistics.C143_expectation",
    "Statistics.C143_bounds",
    "Statistics.C143_constant",
    "Statistics.C143_difference",
    "Statistics.C143_variance_step",
    "Statistics.C143_bad_weight_negated",
    "Statistics.C143_round"
   ],
   "note": "Exact arithmetic in any ordered field: rounding, infinities and NaN are not modelled."
  },
  {
   "property": "C144",
   "status": "proved",
   "theorems": [
    "Unicode.C144_to_wide",
    "Unicode.C144_to_char",
    "Unicode.C144_ascii_round_trip",
    "Unicode.C144_latin1_lost_negated",
    "Unicode.C144_size_zero_negated"
   ],
   "note": "The exceptions (characters above 127, size 0) are the _negated theorems; char is signed."
  },
  {
   "property": "C145",
   "status": "proved",
   "theorems": [
    "Base64.C145_round_trip",
    "Base64.C145_lines",
    "Base64.C145_newline_inside_negated"
   ],
   "note": "OpenSSL's base64 filter is modelled from its documentation; failing library calls are not modelled."
  },
  {
   "property": "C146",
   "status": "proved",
   "theorems": [
    "C146_typed_members",
    "C146_typed_items",
    "C146_null_as_string_negated",
    "C146_null_has_no_type_name_negated"
   ],
   "note": "Refused means the assertion fails (or undefined with assertions off)."
  },
  {
   "property": "C147",
   "status": "proved",
   "theorems": [
    "C147_account",
    "C147_all_returned",
    "C147_failed_copy_leaks_negated",
    "C147_attributes_not_destroyed_negated"
   ],
   "note": "Contents and destruction of the items are in C03, C14, C16, C117, C126, C128. What the failed calls lose is a finding, stated exactly."
  },
  {
   "property": "C148",
   "status": "proved",
   "theorems": [
    "C148_job_memory",
    "C148_search_memory",
    "C148_failed_match_leaks_negated",
    "C148_bad_pattern_message_negated",
    "C148_messages_tell_errors_apart"
   ],
   "note": "PCRE is a parameter; what is replaced by what is C103."
  },
  {
   "property": "C149",
   "status": "proved",
   "theorems": [
    "C149_set",
    "C149_get",
    "C149_same_number_negated",
    "C149_methods",
    "C149_rename_answer"
   ],
   "note": "The number library is a set of allocated numbers; BN_num_bits is a parameter."
  },
  {
   "property": "C150",
   "status": "proved",
   "theorems": [
    "C150_page",
    "C150_source_date_epoch",
    "C150_no_short_form_negated",
    "C150_blank_in_name_negated",
    "C150_not_escaped_negated"
   ],
   "note": "gmtime_r is a parameter; years of four digits; texts of at most 10^8 bytes."
  },
  {
   "property": "C151",
   "status": "partial",
   "theorems": [
    "WinPass.C151_received_or_closed_partial",
    "WinPass.C151_text_never_arrives_negated",
    "WinPass.C151_unwanted_text_undefined_negated",
    "WinPass.C151_sent_to_the_asker",
    "WinPass.C151_any_answer_is_an_ack_negated",
    "WinPass.C151_split_pid_negated",
    "WinPass.C151_huge_pid_negated",
    "WinPass.C151_exchange_without_text",
    "WinPass.C151_exchange_with_text_negated"
   ],
   "note": "Missing from the partial theorem: receiving with NULL for the text, and receiving a text, both false of the code (_negated theorems). Windows sockets are scripts of results; sizeof(WSAPROTOCOL_INFO) is 372."
  },
  {
   "property": "C152",
   "status": "proved",
   "theorems": [
    "C152_glob",
    "C152_below",
    "C152_not_any_depth_negated",
    "C152_listDir",
    "C152_dots_listed_negated"
   ],
   "note": "glob(3) and reading a directory are parameters; for the tree theorem glob is specified for ordinary characters, * and ?. The result of a glob that fails is not freed by the code and not counted."
  },
  {
   "property": "C153",
   "status": "proved",
   "theorems": [
    "C153_absolute",
    "C153_absolute_windows",
    "C153_map_windows",
    "C153_map_forward",
    "C153_forward_returns_null_negated",
    "C153_map_cygwin",
    "C153_map_cygwin_in_place",
    "C153_cygwin_overflow_negated",
    "C153_copy_to_dir"
   ],
   "note": "isalpha of a character above 127 is undefined (char is signed) and excluded. File_Copy is a parameter (C90)."
  },
  {
   "property": "C154",
   "status": "proved",
   "theorems": [
    "Format.C154_kinds",
    "Format.C154_stream_gets_the_text",
    "Format.C154_stream_refused",
    "Format.C154_short_write_negated",
    "Format.C154_xasprintf",
    "Format.C154_stringFormat",
    "Format.C154_xsnprintf",
    "Format.C154_xsnprintf_size_zero_negated",
    "Format.C154_csvFieldF",
    "Format.C154_error_message",
    "Format.C154_programming_error"
   ],
   "note": "The text is the one of C98 (one text for every buffer); C99 says which it is. The message of the error functions is stated for the formats of C99. The log messages on the way are not modelled."
  },
  {
   "property": "C155",
   "status": "proved",
   "theorems": [
    "TQT.C155_time_limits",
    "TQT.C155_every_call_goes_on"
   ],
   "note": "Possibility, not fairness: the scheduler is not assumed to run anyone. Failing pthread calls exit the process and are not modelled."
  },
  {
   "property": "C156",
   "status": "proved",
   "theorems": [
    "RB.C156_verify_is_the_red_black_rule",
    "RB.C156_verify_passes",
    "RB.C156_default_comparison",
    "RB.C156_default_comparison_negated"
   ],
   "note": "The conversion of the pointer difference to int is taken modulo 2^32 (implementation-defined in C)."
  },
  {
   "property": "C157",
   "status": "proved",
   "theorems": [
    "StrHash.C157_depends_on_the_string",
    "StrHash.C157_seeds_are_permuted",
    "StrHash.C157_one_byte_changes_the_hash",
    "StrHash.C157_lawful_for_maps"
   ],
   "note": "The keys of string maps and sets are modelled as addresses of strings that do not change while they are in the map."
  },
  {
   "property": "C158",
   "status": "proved",
   "theorems": [
    "Dirent.C158_entry_holds_the_name",
    "Dirent.C158_buffer_fits",
    "Dirent.C158_no_limit_negated",
    "Dirent.C158_small_limit_negated"
   ],
   "note": "offsetof and sizeof are parameters; size_t has 64 bits, int 32."
  },
  {
   "property": "C159",
   "status": "proved",
   "theorems": [
    "FileMisc.C159_reads_the_stream",
    "FileMisc.C159_regular_file",
    "FileMisc.C159_close_on_exec",
    "FileMisc.C159_umask_restored"
   ],
   "note": "fread is modelled by its contract: fewer bytes than asked only with an indicator set. Logging is not modelled."
  },
  {
   "property": "C160",
   "status": "proved",
   "theorems": [
    "WinLock.C160_mutual_exclusion",
    "WinLock.C160_attempt",
    "WinLock.C160_released",
    "WinLock.C160_waits_for_itself_negated",
    "WinLock.C160_check_negated"
   ],
   "note": "LockFileEx and UnlockFileEx are modelled by their documentation: locks belong to handles; an exclusive request conflicts with every overlapping lock; unlocking needs the same range. Release on close is taken as immediate."
  },
  {
   "property": "C161",
   "status": "proved",
   "theorems": [
    "RBPtr.C161_pointer_tree_is_a_finite_map"
   ],
   "note": "Statement-by-statement transcription over a heap of nodes. Keys and values are one payload; KeyCopy and ValueCopy are the identity. Proved by simulating the zipper model of C10."
  },
  {
   "property": "C162",
   "status": "proved",
   "theorems": [
    "RBPtr.C162_memory_is_exactly_accounted",
    "RBPtr.C162_clear_destroys_null"
   ],
   "note": "The RBTree and iterator structures themselves are values, not heap blocks; xmalloc failure ends the program."
  },
  {
   "property": "C163",
   "status": "proved",
   "theorems": [
    "RBPtr.C163_iterators_survive_other_changes",
    "RBPtr.C163_removed_iterator_negated",
    "RBPtr.C163_iterator_on_empty_tree_negated"
   ],
   "note": "The iterator structure is a value."
  },
  {
   "property": "C164",
   "status": "proved",
   "theorems": [
    "HashPtr.C164_hash_map_in_memory_is_a_finite_map",
    "HashPtr.C164_memory_is_exactly_accounted"
   ],
   "note": "heap of blocks (bucket array, items); every allocator that returns free blocks; item callbacks pure"
  },
  {
   "property": "C165",
   "status": "proved",
   "theorems": [
    "HashPtr.C165_pointers_survive"
   ],
   "note": "pointers are addresses of the heap model; an address freed and handed out again would count as the same pointer, which Keeps excludes"
  },
  {
   "property": "C166",
   "status": "proved",
   "theorems": [
    "HashPtr.C166_iteration",
    "HashPtr.C166_small_maps_do_not_resize",
    "HashPtr.C166_end_is_final",
    "HashPtr.C166_removing_the_next_item_negated",
    "HashPtr.C166_growing_during_iteration_negated",
    "HashPtr.C166_shrinking_during_iteration_negated"
   ],
   "note": "the limits (next item removed, growth, shrinking) are shown by witnesses"
  },
  {
   "property": "C167",
   "status": "proved",
   "theorems": [
    "HashPtr.C167_never_overfull",
    "HashPtr.C167_stats_are_right",
    "HashPtr.C167_stats_lie_about_bucket_0_negated",
    "HashPtr.C167_clear_keeps_the_buckets"
   ],
   "note": "sizes as natural numbers below the maximum of 2^30 buckets; text of the statistics not modelled, its numbers are"
  },
  {
   "property": "C168",
   "status": "proved",
   "theorems": [
    "C168_written_file_is_read_back",
    "C168_result",
    "C168_failed_write_is_silent_negated",
    "C168_true_is_complete_if_close_reports",
    "C168_crash_leaves_a_prefix",
    "C168_reading_uses_up_descriptors",
    "C168_file_not_opened"
   ],
   "note": "stdio as a buffer that flushes, fails, keeps or drops bytes as an arbitrary schedule says; strings below 10^9 bytes as in C30"
  },
  {
   "property": "C169",
   "status": "proved",
   "theorems": [
    "C169_always_a_string",
    "C169_text",
    "C169_texts_sort_in_time_order",
    "C169_sixty_four_bytes_suffice"
   ],
   "note": "strftime after the C standard with glibc's %z; years of four digits for the fixed layout; the order is that of the fields, leap seconds included"
  },
  {
   "property": "C170",
   "status": "proved",
   "theorems": [
    "C170_windows_messages",
    "C170_windows_short_message_negated",
    "C170_strerror",
    "C170_strerror_cuts_negated",
    "C170_strsignal",
    "C170_reason_for_long",
    "C170_reason_for_ulong"
   ],
   "note": "FormatMessage as an arbitrary text or failure; snprintf of the C library"
  },
  {
   "property": "C171",
   "status": "proved",
   "theorems": [
    "HdrSpec.C171_printsize"
   ],
   "note": "sizes below 2^58 bytes, so that the macro's own arithmetic in size_t does not wrap"
  },
  {
   "property": "C172",
   "status": "proved",
   "theorems": [
    "HdrSpec.C172_little_endian"
   ],
   "note": "memory representation of a word as the four bytes in the order of the machine"
  },
  {
   "property": "C173",
   "status": "partial",
   "theorems": [
    "HdrSpec.C173_null_partial",
    "HdrSpec.C173_length_negated",
    "HdrSpec.C173_length_extremes",
    "HdrSpec.C173_contains",
    "HdrSpec.C173_printable"
   ],
   "note": "strstr, strchr and strncmp of the C library as their loops; lengths up to 2^31-1 for SafeStringLength"
  },
  {
   "property": "C174",
   "status": "partial",
   "theorems": [
    "HdrSpec.C174_abs_partial",
    "HdrSpec.C174_abs_difference",
    "HdrSpec.C174_abs_negated",
    "HdrSpec.C174_sizes_partial",
    "HdrSpec.C174_sizes_negated"
   ],
   "note": "macro arguments: single operands, sums and differences; int of 32 bits"
  },
  {
   "property": "C175",
   "status": "partial",
   "theorems": [
    "CompatMiscSpec.C175_nanosleep_partial",
    "CompatMiscSpec.C175_nanosleep_negated"
   ],
   "note": "Sleep with its argument INFINITE as never returning; scheduling delays not modelled"
  },
  {
   "property": "C176",
   "status": "partial",
   "theorems": [
    "CompatMiscSpec.C176_unsetenv_windows",
    "CompatMiscSpec.C176_dirfd_partial",
    "CompatMiscSpec.C176_dirfd_negated"
   ],
   "note": "names compared byte by byte (Windows ignores case)"
  },
  {
   "property": "C177",
   "status": "partial",
   "theorems": [
    "CompatMiscSpec.C177_drand48_partial",
    "CompatMiscSpec.C177_drand48_large",
    "CompatMiscSpec.C177_drand48_negated"
   ],
   "note": "rounding as any monotone function that is exact on numbers with 53 significant bits"
  },
  {
   "property": "C178",
   "status": "partial",
   "theorems": [
    "CompatMiscSpec.C178_loadavg_linux_partial",
    "CompatMiscSpec.C178_loadavg_linux_negated",
    "CompatMiscSpec.C178_loadavg_netbsd_partial",
    "CompatMiscSpec.C178_loadavg_netbsd_negated"
   ],
   "note": "sscanf reads as far as it needs to (glibc looks for the end of the string first); numbers as digits and points; NetBSD after the conversion by fscanf"
  },
  {
   "property": "C179",
   "status": "proved",
   "theorems": [
    "CompatMiscSpec.C179_times",
    "CompatMiscSpec.C179_seteuid",
    "CompatMiscSpec.C179_srand48"
   ],
   "note": "system functions by their outcomes"
  },
  {
   "property": "C180",
   "status": "partial",
   "theorems": [
    "LogThreadsSpec.C180_each_thread",
    "LogThreadsSpec.C180_whole_lines_partial",
    "LogThreadsSpec.C180_whole_lines_negated",
    "LogThreadsSpec.C180_first_use",
    "LogThreadsSpec.C180_torn_levels_negated"
   ],
   "note": "steps: look-up of the context, each read of the global level, each fprintf and each syslog call; hooks not included; VPREFIX, agent type and time stamps fixed while logging; the race on the global level is treated as interleaving"
  },
  {
   "property": "C181",
   "status": "proved",
   "theorems": [
    "CleanupThreadsSpec.C181_last_registered_first",
    "CleanupThreadsSpec.C181_no_registration_is_lost",
    "CleanupThreadsSpec.C181_cleanup_is_complete",
    "CleanupThreadsSpec.C181_memory",
    "CleanupThreadsSpec.C181_no_deadlock",
    "CleanupThreadsSpec.C181_every_schedule_ends",
    "CleanupThreadsSpec.C181_late_registration_negated"
   ],
   "note": "steps: lock, malloc, each store, each read of the list, each call of a function, each free, unlock, exit; sequentially consistent memory; malloc does not fail (xmalloc exits); the exception is the _negated theorem"
  },
  {
   "property": "C182",
   "status": "proved",
   "theorems": [
    "C182_sequences_are_independent",
    "C182_no_item_is_destroyed_twice",
    "C182_no_item_is_lost",
    "C182_soft_copy_destroys_twice_negated",
    "C182_append_to_itself_never_ends_negated",
    "C182_soft_sort_destructor_negated"
   ],
   "note": "addresses are not used again after free and xrealloc always moves; functions that stay inside one sequence are read, computed as in Model/Seq and written back; the exceptions are the _negated theorems; sequences of at most INT_MAX elements for sorting and removing NULLs"
  },
  {
   "property": "C183",
   "status": "proved",
   "theorems": [
    "C183_reproducible",
    "C183_every_order",
    "C183_no_order_twice",
    "C183_state_not_restored_negated"
   ],
   "note": "RAND_MAX is not modelled: with rand() below RAND_MAX + 1 the numbers modulo k + 1 are only nearly uniform"
  },
  {
   "property": "C184",
   "status": "proved",
   "theorems": [
    "C184_only_beginnings_of_the_path",
    "C184_complete_from_then_on",
    "C184_call_before_starting_threads",
    "C184_race_gives_a_cut_path_negated"
   ],
   "note": "one buffer at a time; sequentially consistent memory; snprintf writes its text in order and the NUL last; all calls print the same text, which fits (C142 has the sequential behaviour, with changes of user and environment)"
  },
  {
   "property": "C185",
   "status": "proved",
   "theorems": [
    "C185_what_is_returned",
    "C185_granted_returns",
    "C185_refused_nothing",
    "C185_out_of_memory",
    "C185_cleanup_calls",
    "C185_register_hangs_negated",
    "C185_cleanup_function_hangs_negated",
    "C185_hangs_only_there"
   ],
   "note": "Full statement, with two findings: the process hangs instead of exiting when RegisterCleanupFunction or a cleanup function is refused memory. One thread; addresses are not reused; realloc to 0 bytes that gives NULL frees the block (glibc)."
  },
  {
   "property": "C186",
   "status": "proved",
   "theorems": [
    "C186_every_line",
    "C186_memory_safe",
    "C186_unambiguous",
    "C186_rfc4180",
    "C186_malformed_end_is_accepted_negated",
    "C186_file"
   ],
   "note": "Exact: acceptance, refusal and value of every line outside the excluded class, which is a finding of its own (C61). Three more findings are forms of the grammar."
  },
  {
   "property": "C187",
   "status": "proved",
   "theorems": [
    "C187_any_program",
    "C187_nothing_left",
    "C187_no_item_lost",
    "C187_copy_destroys_twice_negated",
    "C187_iterator_after_clear_negated",
    "C187_empty_queue_negated",
    "C187_iterator_after_destroy_negated"
   ],
   "note": "Full statement, with findings (copied destructor, iterator after clear, empty queue). Addresses are not reused; destructors only record; the copy function of ring buffers is NULL; one thread."
  },
  {
   "property": "C188",
   "status": "proved",
   "theorems": [
    "C188_any_program",
    "C188_nothing_left",
    "C188_self_append_negated",
    "C188_self_append_room",
    "C188_set_from_itself_negated",
    "C188_stale_pointer_negated",
    "C188_close_bytes_negated"
   ],
   "note": "Full statement, with findings (self append, set from itself, stale pointer, closed byte buffer). Addresses are not reused and realloc always moves; texts produced by formats are values; sizes below 2^32 (capacity computation, C36); one thread."
  },
  {
   "property": "C189",
   "status": "proved",
   "theorems": [
    "JsonWriteHeap.C189_written_document_is_sorted",
    "JsonWriteHeap.C189_programs_that_write",
    "JsonWriteHeap.C189_writes_never_fail",
    "JsonWriteHeap.C189_writes_only_reorder",
    "JsonWriteHeap.C189_write_leaves_order_negated"
   ],
   "note": "Full statement, with one finding (the order changes under a const pointer). The texts are those of C24/C134's writers on plain values; the Writer is outside the heap; names are read once before each sort; one thread."
  },
  {
   "property": "C190",
   "status": "proved",
   "theorems": [
    "JsonWriteThreads.C190_written_is_in_order",
    "JsonWriteThreads.C190_threads_write_at_the_same_time",
    "JsonWriteThreads.C190_threads_write_apart",
    "JsonWriteThreads.C190_first_writes_negated",
    "JsonWriteThreads.C190_three_first_writes_negated"
   ],
   "note": "Full statement, with two findings (first writes race). Accesses are single steps in some total order (as on a machine that stores pointers in one piece); a compiler may do worse, since they are unsynchronised. Each thread's Writer is its own and outside memory."
  }
 ]
}