{
 "claims": [
  {
   "property": "C01",
   "status": "proved",
   "theorems": [
    "Thors.Props.C01_string_round_trip"
   ],
   "note": "all byte strings, any following text"
  },
  {
   "property": "C02",
   "status": "proved",
   "theorems": [
    "Thors.Props.C02_emitted_string_is_legal",
    "Thors.Props.C02_token_ends_at_final_quote"
   ],
   "note": "against the RFC 8259 string grammar in Spec/JsonString.lean"
  },
  {
   "property": "C03",
   "status": "proved",
   "theorems": [
    "Thors.Props.C03_literal_decoding"
   ],
   "note": ""
  },
  {
   "property": "C04",
   "status": "partial",
   "theorems": [
    "Thors.Props.C04_surrogate_pairs_partial",
    "Thors.Props.C04_what_surrogates_decode_to",
    "Thors.Props.C04_bodies_partial",
    "Thors.Props.C04_false"
   ],
   "note": "false in general: the code ORs 0x10000 instead of adding it, so code points of even planes come out 0x10000 too low; exact characterisation proved, counterexample U+20000"
  },
  {
   "property": "C05",
   "status": "proved",
   "theorems": [
    "Thors.Props.C05_string_reading_is_safe",
    "Thors.Props.C05_only_well_formed_accepted",
    "Thors.Props.C05_unterminated_fails"
   ],
   "note": ""
  },
  {
   "property": "C06",
   "status": "proved",
   "theorems": [
    "Thors.Props.C06_in_place_is_fresh"
   ],
   "note": ""
  },
  {
   "property": "C07",
   "status": "proved",
   "theorems": [
    "Thors.Props.C07_decoders_agree"
   ],
   "note": ""
  },
  {
   "property": "C08",
   "status": "proved",
   "theorems": [
    "Thors.Props.C08_int_round_trip"
   ],
   "note": "std::to_chars/from_chars modelled from their standard contract"
  },
  {
   "property": "C09",
   "status": "partial",
   "theorems": [
    "Thors.Props.C09_value_exact_partial",
    "Thors.Props.C09_false"
   ],
   "note": "false for string input: errc::result_out_of_range is not treated as an error and an indeterminate value is returned; proved: a defined result is always the literal's value"
  },
  {
   "property": "C10",
   "status": "partial",
   "theorems": [
    "Thors.Props.C10_leading_zeros_partial",
    "Thors.Props.C10_which_zeros_rejected",
    "Thors.Props.C10_false"
   ],
   "note": "-01 and 00 are accepted; exact characterisation proved"
  },
  {
   "property": "C11",
   "status": "proved",
   "theorems": [
    "Thors.Props.C11_only_grammatical"
   ],
   "note": "over lexical classes, arbitrary client between tokens"
  },
  {
   "property": "C13",
   "status": "proved",
   "theorems": [
    "Thors.Props.C13_no_underflow"
   ],
   "note": ""
  },
  {
   "property": "C14",
   "status": "proved",
   "theorems": [
    "Thors.Props.C14_end_once_errors_final"
   ],
   "note": ""
  },
  {
   "property": "C47",
   "status": "proved",
   "theorems": [
    "Thors.Props.C47_fraction_not_truncated"
   ],
   "note": ""
  },
  {
   "property": "C12",
   "status": "proved",
   "theorems": [
    "Thors.Props.C12_document_events",
    "Thors.Props.C12_accepts_every_document"
   ],
   "note": "every document of the text grammar in Spec/JsonText.lean, any white space, any nesting"
  },
  {
   "property": "C15",
   "status": "partial",
   "theorems": [
    "Thors.Props.C15_lifo_partial",
    "Thors.Props.C15_third_token_lost"
   ],
   "note": "holds with at most two tokens outstanding; the third is lost, proved with a witness"
  },
  {
   "property": "C16",
   "status": "partial",
   "theorems": [
    "Thors.Props.C16_skip_exact_partial",
    "Thors.Props.C16_false_for_backslash"
   ],
   "note": "false for strings that end in an escaped backslash, proved with a witness"
  },
  {
   "property": "C45",
   "status": "proved",
   "theorems": [
    "Thors.Props.C45_primitives_inside",
    "Thors.Props.C45_answers_inside",
    "Thors.Props.C45_get_unget",
    "Thors.Props.C45_json_reader_inside"
   ],
   "note": ""
  },
  {
   "property": "C17",
   "status": "proved",
   "theorems": [
    "Thors.Props.C17_strict_rejects",
    "Thors.Props.C17_strict_throws",
    "Thors.Props.C17_weak_ignores",
    "Thors.Props.C17_bson_strict_rejects",
    "Thors.Props.C17_stream_strict_rejects",
    "Thors.Props.C17_stream_weak_ignores",
    "Thors.Props.C17_yaml_strict_rejects",
    "Thors.Props.C17_yaml_weak_ignores"
   ],
   "note": "Weak mode for BSON: C30"
  },
  {
   "property": "C18",
   "status": "partial",
   "theorems": [
    "Thors.Props.C18_exact_requires_all",
    "Thors.Props.C18_exact_is_strict_partial",
    "Thors.Props.C18_false_with_overrides",
    "Thors.Props.C18_bson_exact_requires_all",
    "Thors.Props.C18_stream_exact_requires_all",
    "Thors.Props.C18_yaml_exact_requires_all"
   ],
   "note": "Exact mode looks members up by declared names, so overridden names break it; proved with a witness"
  },
  {
   "property": "C19",
   "status": "proved",
   "theorems": [
    "Thors.Props.C19_order_irrelevant",
    "Thors.Props.C19_bson_order_irrelevant",
    "Thors.Props.C19_stream_order_irrelevant",
    "Thors.Props.C19_yaml_order_irrelevant"
   ],
   "note": "In Weak mode JSON for documents whose strings can be skipped (C16)."
  },
  {
   "property": "C37",
   "status": "proved",
   "theorems": [
    "Thors.Props.C37_import_outcome",
    "Thors.Props.C37_export_outcome"
   ],
   "note": "any parser and printer; imports without the trailing data check, which is C38"
  },
  {
   "property": "C38",
   "status": "proved",
   "theorems": [
    "Thors.Props.C38_blank_tail_accepted",
    "Thors.Props.C38_trailing_data_rejected",
    "Thors.Props.C38_unchecked_tail_ignored"
   ],
   "note": "JSON from strings; any trailing text that does not continue a number at the root"
  },
  {
   "property": "C39",
   "status": "partial",
   "theorems": [
    "Thors.Props.C39_map_last_wins_partial",
    "Thors.Props.C39_unordered_first_wins",
    "Thors.Props.C39_multimap_keeps_all",
    "Thors.Props.C39_yaml_map_last_wins_partial",
    "Thors.Props.C39_yaml_unordered_first_wins",
    "Thors.Props.C39_yaml_multimap_keeps_all",
    "Thors.Props.C39_bson_map_last_wins_partial",
    "Thors.Props.C39_bson_unordered_first_wins",
    "Thors.Props.C39_bson_multimap_keeps_all",
    "Thors.Props.C39_false_for_containers"
   ],
   "note": "std::map: false for element types that parse into the old value, proved with a witness"
  },
  {
   "property": "C40",
   "status": "partial",
   "theorems": [
    "Thors.Props.C40_array_inside_partial",
    "Thors.Props.C40_tuple_inside_partial",
    "Thors.Props.C40_array_overrun",
    "Thors.Props.C40_false"
   ],
   "note": "false for longer arrays: the code runs over the end, proved for every size"
  },
  {
   "property": "C20",
   "status": "proved",
   "theorems": [
    "Thors.Props.C20_export_is_well_formed",
    "Thors.Props.C20_unrepresentable_is_refused"
   ],
   "note": "integers, bool, strings, containers, classes, pointers, variants; floating point values: finite ones"
  },
  {
   "property": "C21",
   "status": "partial",
   "theorems": [
    "Thors.Props.C21_keys_partial",
    "Thors.Props.C21_false"
   ],
   "note": "false: keys are written without escaping; both failure modes proved with witnesses"
  },
  {
   "property": "C22",
   "status": "proved",
   "theorems": [
    "Thors.Props.C22_layout_is_white_space"
   ],
   "note": "one token sequence for all layouts"
  },
  {
   "property": "C24",
   "status": "proved",
   "theorems": [
    "Thors.Props.C24_two_passes",
    "Thors.Props.C24_export_to_string",
    "Thors.Props.C24_bson_export_to_string"
   ],
   "note": ""
  },
  {
   "property": "C25",
   "status": "partial",
   "theorems": [
    "Thors.Props.C25_indent_inside_partial",
    "Thors.Props.C25_exact",
    "Thors.Props.C25_false"
   ],
   "note": "false: with default settings every value nested deeper than 1001 levels overruns the indentation buffer"
  },
  {
   "property": "C23",
   "status": "partial",
   "theorems": [
    "Thors.Props.C23_round_trip_partial",
    "Thors.Props.C23_false"
   ],
   "note": "all types of the model, all layouts, all modes; restricted to keys that need no escaping, indentation that fits, and no null pointer behind a pointer; both failures proved with witnesses"
  },
  {
   "property": "C34",
   "status": "proved",
   "theorems": [
    "Thors.Props.C34_enum_round_trip",
    "Thors.Props.C34_foreign_name_rejected",
    "Thors.Props.C34_unregistered_value_rejected",
    "Thors.Props.C34_stream_foreign_name_rejected",
    "Thors.Props.C34_yaml_foreign_name_rejected"
   ],
   "note": ""
  },
  {
   "property": "C36",
   "status": "partial",
   "theorems": [
    "Thors.Props.C36_dynamic_class_restored_partial",
    "Thors.Props.C36_unknown_class_rejected",
    "Thors.Props.C36_stream_unknown_class_rejected",
    "Thors.Props.C36_yaml_unknown_class_rejected",
    "Thors.Props.C36_bson_unknown_class_rejected",
    "Thors.Props.C36_false",
    "Thors.Props.C36_second_base_false"
   ],
   "note": "Proved for classes that use the marker of the base class and have it at the beginning. False for classes with a type field name of their own (C36_false: every import of such an export throws) and undefined for second base classes (C36_second_base_false: reinterpret_cast of the pointer)."
  },
  {
   "property": "C41",
   "status": "partial",
   "theorems": [
    "Thors.Props.C41_optional_members_partial",
    "Thors.Props.C41_false"
   ],
   "note": "false with a user filter: an empty optional it does not hide makes the export throw"
  },
  {
   "property": "C42",
   "status": "proved",
   "theorems": [
    "Thors.Props.C42_written_members",
    "Thors.Props.C42_read_back",
    "Thors.Props.C42_parents_read_back"
   ],
   "note": "written members for all classes; read back for the values of C23 and classes without ThorsAnvil_TypeFieldName (C123)"
  },
  {
   "property": "C29",
   "status": "proved",
   "theorems": [
    "Thors.Props.C29_index_keys",
    "Thors.Props.C29_index_written"
   ],
   "note": ""
  },
  {
   "property": "C32",
   "status": "proved",
   "theorems": [
    "Thors.Props.C32_little_endian",
    "Thors.Props.C32_big_endian",
    "Thors.Props.C32_short_read_indeterminate"
   ],
   "note": ""
  },
  {
   "property": "C26",
   "status": "partial",
   "theorems": [
    "Thors.Props.C26_sizes_partial",
    "Thors.Props.C26_framed_length",
    "Thors.Props.C26_false_strings",
    "Thors.Props.C26_false_classes"
   ],
   "note": "false for strings that need escaping, for variants of classes without type field name and for pairs with an empty optional; all proved with witnesses"
  },
  {
   "property": "C27",
   "status": "partial",
   "theorems": [
    "Thors.Props.C27_round_trip_partial",
    "Thors.Props.C27_null_refused",
    "Thors.Props.C27_false"
   ],
   "note": "same restrictions as C26, and no optional or variant at the top level"
  },
  {
   "property": "C28",
   "status": "partial",
   "theorems": [
    "Thors.Props.C28_verbatim_partial",
    "Thors.Props.C28_stored_escaped",
    "Thors.Props.C28_read_verbatim",
    "Thors.Props.C28_false"
   ],
   "note": "false exactly for the strings with quotes, backslashes or control characters, which are stored JSON-escaped"
  },
  {
   "property": "C30",
   "status": "proved",
   "theorems": [
    "Thors.Props.C30_unknown_skipped",
    "Thors.Props.C30_position"
   ],
   "note": ""
  },
  {
   "property": "C31",
   "status": "partial",
   "theorems": [
    "Thors.Props.C31_exact_partial",
    "Thors.Props.C31_others_rejected",
    "Thors.Props.C31_false"
   ],
   "note": "false for every number the destination type does not have: it wraps"
  },
  {
   "property": "C33",
   "status": "partial",
   "theorems": [
    "Thors.Props.C33_never_accepted_partial",
    "Thors.Props.C33_cut_never_accepted_partial",
    "Thors.Props.C33_export_cut_partial",
    "Thors.Props.C33_false"
   ],
   "note": "never accepted; but a document cut inside its length makes the code use an indeterminate value instead of failing"
  },
  {
   "property": "C43",
   "status": "proved",
   "theorems": [
    "Thors.Props.C43_text",
    "Thors.Props.C43_constructor",
    "Thors.Props.C43_binary",
    "Thors.Props.C43_exactly_these",
    "Thors.Props.C43_json",
    "Thors.Props.C43_element",
    "Thors.Props.C43_generated_fits"
   ],
   "note": ""
  },
  {
   "property": "C48",
   "status": "proved",
   "theorems": [
    "Thors.Props.C48_date_time",
    "Thors.Props.C48_time_stamp",
    "Thors.Props.C48_binary_data",
    "Thors.Props.C48_javascript",
    "Thors.Props.C48_regex",
    "Thors.Props.C48_date_time_json",
    "Thors.Props.C48_time_stamp_json"
   ],
   "note": "binary data and code below 2^31 bytes, which is what the BSON size field can hold"
  },
  {
   "property": "C49",
   "status": "partial",
   "theorems": [
    "Thors.Props.C49_as_date_time_partial",
    "Thors.Props.C49_false"
   ],
   "note": "false: the product is computed modulo 2^32; true exactly for time stamps up to 4294967 seconds"
  },
  {
   "property": "C50",
   "status": "partial",
   "theorems": [
    "Thors.Props.C50_stored_partial",
    "Thors.Props.C50_false"
   ],
   "note": "false: both halves are written big endian; what is written is characterised exactly"
  },
  {
   "property": "C51",
   "status": "proved",
   "theorems": [
    "Thors.Props.C51_text_is_hex_of_bytes",
    "Thors.Props.C51_order_is_text_order"
   ],
   "note": ""
  },
  {
   "property": "C52",
   "status": "partial",
   "theorems": [
    "Thors.Props.C52_to_string_partial",
    "Thors.Props.C52_false"
   ],
   "note": "false after a second value is read into an object whose text was asked for: the cached text is not dropped"
  },
  {
   "property": "C53",
   "status": "partial",
   "theorems": [
    "Thors.Props.C53_skip_like_read_partial",
    "Thors.Props.C53_false"
   ],
   "note": "false for regular expressions and JavaScript code: skipping them throws"
  },
  {
   "property": "C54",
   "status": "partial",
   "theorems": [
    "Thors.Props.C54_not_a_value_partial",
    "Thors.Props.C54_false"
   ],
   "note": "documents, arrays, keys and ends are rejected; elements of other simple types are not: the type byte is ignored"
  },
  {
   "property": "C44",
   "status": "proved",
   "theorems": [
    "Thors.Props.C44_yaml_tokens",
    "Thors.Props.C44_same_tokens_as_json"
   ],
   "note": "libyaml is represented by the events it reports"
  },
  {
   "property": "C46",
   "status": "partial",
   "theorems": [
    "Thors.Props.C46_any_block_partial",
    "Thors.Props.C46_any_block_stable_partial",
    "Thors.Props.C46_false_for_escaped_keys",
    "Thors.Props.C46_false_for_utf8",
    "Thors.Props.C46_false_for_backslash"
   ],
   "note": "false: keys are captured decoded, non-ASCII strings and strings ending in an escaped backslash are refused; proved for all other documents"
  },
  {
   "property": "C55",
   "status": "partial",
   "theorems": [
    "Thors.Props.C55_yaml_round_trip_partial",
    "Thors.Props.C55_false"
   ],
   "note": "false for the strings null and ~ behind pointers; proved for all documents without these strings; libyaml is represented by its events"
  },
  {
   "property": "C56",
   "status": "proved",
   "theorems": [
    "Thors.Props.C56_only_complete_plain_documents"
   ],
   "note": "libyaml is represented by the events it reports"
  },
  {
   "property": "C57",
   "status": "partial",
   "theorems": [
    "Thors.Props.C57_yaml_integers_partial",
    "Thors.Props.C57_not_a_number",
    "Thors.Props.C57_false"
   ],
   "note": "false: numbers out of range wrap or saturate silently and the empty scalar is 0; numbers in range are exact and other texts are refused"
  },
  {
   "property": "C58",
   "status": "proved",
   "theorems": [
    "Thors.Props.C58_input_chunks",
    "Thors.Props.C58_output_chunks"
   ],
   "note": ""
  },
  {
   "property": "C59",
   "status": "partial",
   "theorems": [
    "Thors.Props.C59_json_in_yaml_partial",
    "Thors.Props.C59_false"
   ],
   "note": "proved for documents without the string values null and ~; false for these behind pointers"
  },
  {
   "property": "C35",
   "status": "partial",
   "theorems": [
    "Thors.Props.C35_same_graph_partial",
    "Thors.Props.C35_unknown_name",
    "Thors.Props.C35_exact_rejects",
    "Thors.Props.C35_false"
   ],
   "note": "false for cyclic graphs and in Exact mode; proved for all graphs without cycles, of objects with one static type each, exported to JSON on a stream"
  },
  {
   "property": "C60",
   "status": "partial",
   "theorems": [
    "Thors.Props.C60_string_then_stream_partial",
    "Thors.Props.C60_agree_in_range_partial",
    "Thors.Props.C60_extract_agrees_partial",
    "Thors.Props.C60_false",
    "Thors.Props.C60_false_unseekable",
    "Thors.Props.C60_false_hang"
   ],
   "note": "false for integers out of range, for streams that cannot tell their position and for a truncated string that does not return; proved for every document that a string import accepts, and in both directions when the integers are in range and no string has the byte 0xFF"
  },
  {
   "property": "C61",
   "status": "proved",
   "theorems": [
    "Thors.Props.C61_documents_in_sequence"
   ],
   "note": "for sequences of documents that a string import accepts"
  },
  {
   "property": "C62",
   "status": "partial",
   "theorems": [
    "Thors.Props.C62_number_nearest_partial",
    "Thors.Props.C62_import_nearest_partial",
    "Thors.Props.C62_value_nearest_partial",
    "Thors.Props.C62_false"
   ],
   "note": "false for numbers out of range: they are accepted and leave an indeterminate value; all numbers in range are read correctly rounded"
  },
  {
   "property": "C63",
   "status": "partial",
   "theorems": [
    "Thors.Props.C63_text_is_number_partial",
    "Thors.Props.C63_false",
    "Thors.Props.C63_infinity_false"
   ],
   "note": "false for negative zeros in strings and for infinities and NaN; proved for all other values"
  },
  {
   "property": "C64",
   "status": "partial",
   "theorems": [
    "Thors.Props.C64_millionths_partial",
    "Thors.Props.C64_decimals_partial",
    "Thors.Props.C64_error_partial",
    "Thors.Props.C64_false"
   ],
   "note": "false: strings keep six places behind the point; proved for whole millionths and for decimals with up to six places below 2^(prec-20), with an error bound for all values"
  },
  {
   "property": "C65",
   "status": "partial",
   "theorems": [
    "Thors.Props.C65_decimals_partial",
    "Thors.Props.C65_false"
   ],
   "note": "false: streams keep six significant digits; proved for all decimals with up to six digits"
  },
  {
   "property": "C66",
   "status": "partial",
   "theorems": [
    "Thors.Props.C66_string_is_well_formed_partial",
    "Thors.Props.C66_false"
   ],
   "note": "false for doubles from 10^18 with the default estimate, and for negative zero with exact sizes: memory outside the string is written"
  },
  {
   "property": "C67",
   "status": "partial",
   "theorems": [
    "Thors.Props.C67_float_double_partial",
    "Thors.Props.C67_false"
   ],
   "note": "false for long double, which is narrowed to double; proved for float and double; inside documents see C27"
  },
  {
   "property": "C68",
   "status": "proved",
   "theorems": [
    "Thors.Props.C68_integers",
    "Thors.Props.C68_doubles",
    "Thors.Props.C68_others_rejected"
   ],
   "note": ""
  },
  {
   "property": "C69",
   "status": "partial",
   "theorems": [
    "Thors.Props.C69_yaml_nearest_partial",
    "Thors.Props.C69_false"
   ],
   "note": "false for numbers that are too large: infinity without an error"
  },
  {
   "property": "C70",
   "status": "partial",
   "theorems": [
    "Thors.Props.C70_stream_nearest_partial",
    "Thors.Props.C70_false"
   ],
   "note": "false for numbers that are too large: the largest value without an error"
  },
  {
   "property": "C71",
   "status": "proved",
   "theorems": [
    "Thors.Props.C71_set_import",
    "Thors.Props.C71_nothing_lost",
    "Thors.Props.C71_set_import_yaml",
    "Thors.Props.C71_set_import_bson"
   ],
   "note": ""
  },
  {
   "property": "C72",
   "status": "proved",
   "theorems": [
    "Thors.Props.C72_multiset_import",
    "Thors.Props.C72_multiset_import_yaml",
    "Thors.Props.C72_multiset_import_bson"
   ],
   "note": ""
  },
  {
   "property": "C73",
   "status": "proved",
   "theorems": [
    "Thors.Props.C73_unordered_set_import",
    "Thors.Props.C73_unordered_set_import_yaml",
    "Thors.Props.C73_unordered_set_import_bson"
   ],
   "note": ""
  },
  {
   "property": "C74",
   "status": "proved",
   "theorems": [
    "Thors.Props.C74_set_order_irrelevant",
    "Thors.Props.C74_multiset_order_irrelevant"
   ],
   "note": ""
  },
  {
   "property": "C75",
   "status": "proved",
   "theorems": [
    "Thors.Props.C75_map_first_wins"
   ],
   "note": ""
  },
  {
   "property": "C76",
   "status": "partial",
   "theorems": [
    "Thors.Props.C76_threads_partial",
    "Thors.Props.C76_false"
   ],
   "note": "The printer's indentation buffer is shared by all threads: with two indented exports a bracket of one gets into the text of the other. Proved for every schedule if all other threads (or this one) use the Stream layout."
  },
  {
   "property": "C77",
   "status": "partial",
   "theorems": [
    "Thors.Props.C77_history_partial",
    "Thors.Props.C77_same_settings_partial",
    "Thors.Props.C77_false_exception",
    "Thors.Props.C77_false_newline"
   ],
   "note": "An exception while a bracket is written leaves the bracket in the shared buffer, and a block indent of -1 removes the newline for good. Proved for all histories where no exception hits a bracket, and for all histories with equal settings."
  },
  {
   "property": "C78",
   "status": "partial",
   "theorems": [
    "Thors.Props.C78_distinct_partial",
    "Thors.Props.C78_made",
    "Thors.Props.C78_false",
    "Thors.Props.C78_false_threads",
    "Thors.Props.C78_start_undefined"
   ],
   "note": "Counters repeat after 4095 ObjectIDs, threads can get the same one, and the start value can overflow. Proved: fewer than 4095 apart they differ."
  },
  {
   "property": "C79",
   "status": "partial",
   "theorems": [
    "Thors.Props.C79_cut_partial",
    "Thors.Props.C79_strict",
    "Thors.Props.C79_false_in_weak_mode"
   ],
   "note": "Proved in full in Strict and Exact mode. In Weak mode skipping a string that ends in a backslash runs past its end (C16), and a bracket inside a later key can then end the document; proved for documents without such strings."
  },
  {
   "property": "C80",
   "status": "partial",
   "theorems": [
    "Thors.Props.C80_documents",
    "Thors.Props.C80_any_bytes_partial",
    "Thors.Props.C80_false"
   ],
   "note": "Proved for all documents in all modes, and for all bytes in Strict and Exact mode. In Weak mode a skipped string of negative size moves the position in a string back but not in a stream."
  },
  {
   "property": "C81",
   "status": "proved",
   "theorems": [
    "Thors.Props.C81_documents_in_sequence",
    "Thors.Props.C81_exports_in_sequence"
   ],
   "note": "For all sequences of documents; for exported values with the restrictions of C27."
  },
  {
   "property": "C82",
   "status": "proved",
   "theorems": [
    "Thors.Props.C82_only_what_it_takes",
    "Thors.Props.C82_cut_documents"
   ],
   "note": ""
  },
  {
   "property": "C83",
   "status": "partial",
   "theorems": [
    "Thors.Props.C83_ends_partial",
    "Thors.Props.C83_same_report",
    "Thors.Props.C83_without_numbers",
    "Thors.Props.C83_round",
    "Thors.Props.C83_false"
   ],
   "note": "Proved for all bytes and all types without std::array, std::tuple and containers of pointers; a number out of range leaves an indeterminate value (C09), which the theorem allows to be anything. False for containers of pointers: `[null null` read into a vector of unique pointers appends null pointers for ever. Strings only: from streams see C60_false_hang."
  },
  {
   "property": "C84",
   "status": "partial",
   "theorems": [
    "Thors.Props.C84_ids_to_stream_partial",
    "Thors.Props.C84_no_store_partial",
    "Thors.Props.C84_ids_to_string_partial",
    "Thors.Props.C84_ids_to_string_false"
   ],
   "note": "Proved for streams, with the restrictions of C26 (SizeKnown, TopLevel, no escapes). False for std::string: each of the two passes makes identifiers and stores them, so the store gets twice as many as there are documents and the first half is in no document; what happens is characterised by C84_ids_to_string_partial."
  },
  {
   "property": "C85",
   "status": "partial",
   "theorems": [
    "Thors.Props.C85_projection_partial",
    "Thors.Props.C85_scalar_false",
    "Thors.Props.C85_member_false"
   ],
   "note": "Proved for projections of arrays and documents exported by themselves (SizeKnown as in C26; any strings). False for a projected scalar (no terminating byte) and for a projection that is a member of a class (the enclosing lengths are those without the projection)."
  },
  {
   "property": "C86",
   "status": "partial",
   "theorems": [
    "Thors.Props.C86_size_partial",
    "Thors.Props.C86_scalar_false"
   ],
   "note": "Proved for values represented by arrays and documents, with the restrictions of C26. False for single values: the document around them is not counted."
  },
  {
   "property": "C87",
   "status": "partial",
   "theorems": [
    "Thors.Props.C87_range_json_partial",
    "Thors.Props.C87_range_yaml_partial",
    "Thors.Props.C87_range_bson_partial",
    "Thors.Props.C87_range_bson_doc_partial",
    "Thors.Props.C87_range_to_string_false",
    "Thors.Props.C87_range_bson_to_string_false"
   ],
   "note": "Proved for streams, without restrictions. False for std::string: the array is opened before any space is reserved, so every export of a range to a string writes through a null pointer. That the range is kept by reference to a parameter is not modelled."
  },
  {
   "property": "C88",
   "status": "partial",
   "theorems": [
    "Thors.Props.C88_stream_size_partial",
    "Thors.Props.C88_values_false",
    "Thors.Props.C88_virtual_false",
    "Thors.Props.C88_pair_false"
   ],
   "note": "Proved for values without maps that have elements, pairs and escaped strings, integers up to which std::log10 gives the number of digits, floating point values whose shortest text is as long as the one on the stream. False otherwise: the quotes of map keys and of the keys of a pair are not counted, escapes are not counted, std::abs of the least int is undefined, -0.0, 999999999999999999, objects of classes with virtual functions."
  },
  {
   "property": "C89",
   "status": "proved",
   "theorems": [
    "Thors.Props.C89_stream_layout_is_dense"
   ],
   "note": ""
  },
  {
   "property": "C90",
   "status": "partial",
   "theorems": [
    "Thors.Props.C90_format_partial",
    "Thors.Props.C90_refused",
    "Thors.Props.C90_false"
   ],
   "note": "Proved for numbers below 2^31 and values whose export does not throw; every text with a closing brace outside the grammar is refused. False otherwise: larger numbers wrap modulo 2^32, the parser reads behind a format string without closing brace, and an exception of the exporter is swallowed so that std::format returns a cut text."
  },
  {
   "property": "C91",
   "status": "partial",
   "theorems": [
    "Thors.Props.C91_yaml_ends_partial",
    "Thors.Props.C91_document_partial",
    "Thors.Props.C91_false"
   ],
   "note": "Proved for all types without std::array and std::tuple, containers of pointers included. False for those two: one element too many is written behind the end of the array."
  },
  {
   "property": "C92",
   "status": "partial",
   "theorems": [
    "Thors.Props.C92_builder",
    "Thors.Props.C92_whole",
    "Thors.Props.C92_determined_partial",
    "Thors.Props.C92_round_trip_partial",
    "Thors.Props.C92_false",
    "Thors.Props.C92_false_array"
   ],
   "note": "What is returned is characterised for all formats and inputs. That nothing indeterminate shows through is proved for Exact mode and types without partially filled fixed arrays; in the default Weak mode it is false: members missing from the input are indeterminate."
  },
  {
   "property": "C93",
   "status": "partial",
   "theorems": [
    "Thors.Props.C93_json",
    "Thors.Props.C93_bson",
    "Thors.Props.C93_failed_stream",
    "Thors.Props.C93_json_not_mistaken_partial",
    "Thors.Props.C93_bson_not_mistaken_partial",
    "Thors.Props.C93_false",
    "Thors.Props.C93_loud_false",
    "Thors.Props.C93_loud_bracket_false"
   ],
   "note": "Prefix and report proved for all crash points of streams without exceptions; with exceptions enabled the prefix is proved, and the report except that the program may be ended (C93_loud_false: it is, when a block is open). That the rest is not taken for a document is proved for JSON documents that are not a single number (false for those) in Strict and Exact mode, and for BSON up to undefined behaviour (C33). YAML is not covered: libyaml buffers the output."
  },
  {
   "property": "C94",
   "status": "partial",
   "theorems": [
    "Thors.Props.C94_json_partial",
    "Thors.Props.C94_json_stream_partial",
    "Thors.Props.C94_bson_partial",
    "Thors.Props.C94_bson_stream_partial",
    "Thors.Props.C94_yaml_partial",
    "Thors.Props.C94_any_text_partial",
    "Thors.Props.C94_foreign_class",
    "Thors.Props.C94_false"
   ],
   "note": "Proved for all inputs in all formats, up to undefined behaviour on the way; without that reservation for JSON texts and the types of C83. That foreign classes are refused is false: the registry is one for the whole program and the pointer is reinterpret_cast."
  },
  {
   "property": "C95",
   "status": "proved",
   "theorems": [
    "Thors.Props.C95_bson",
    "Thors.Props.C95_bson_stream",
    "Thors.Props.C95_yaml",
    "Thors.Props.C95_json",
    "Thors.Props.C95_json_stream"
   ],
   "note": "For BSON the kind of the outermost value has to be the kind the type asks for (BSON does not say what it is). In Weak mode the strings of JSON documents have to be ones that can be skipped, see C16. What happens without room: C40, C09, C94."
  },
  {
   "property": "C96",
   "status": "partial",
   "theorems": [
    "Thors.Props.C96_any_text_partial",
    "Thors.Props.C96_grammar",
    "Thors.Props.C96_strict_partial",
    "Thors.Props.C96_false",
    "Thors.Props.C96_nope",
    "Thors.Props.C96_inf",
    "Thors.Props.C96_tab",
    "Thors.Props.C96_zeros",
    "Thors.Props.C96_skipped_word"
   ],
   "note": "The structure is proved for all texts, types and settings; the lexical rules are laxer than those of the RFC, and are given exactly as far as they matter in Spec/Lexis.lean. With the rules of the RFC: for types without numbers and pointers, Strict and Exact mode, no vertical tabs or form feeds. The rest is false, with witnesses."
  },
  {
   "property": "C97",
   "status": "proved",
   "theorems": [
    "Thors.Props.C97_json",
    "Thors.Props.C97_json_stream",
    "Thors.Props.C97_bson",
    "Thors.Props.C97_bson_stream",
    "Thors.Props.C97_yaml",
    "Thors.Props.C97_pointer"
   ],
   "note": "For documents whose unknown members can be skipped (C16) in Weak mode. What is behind a pointer is made anew and has no places (C97_pointer); sequences, sets and multimaps are added to (C39, C71-C73)."
  },
  {
   "property": "C98",
   "status": "partial",
   "theorems": [
    "Thors.Props.C98_object",
    "Thors.Props.C98_json_partial",
    "Thors.Props.C98_json_stream_partial",
    "Thors.Props.C98_bson_partial",
    "Thors.Props.C98_bson_stream_partial",
    "Thors.Props.C98_yaml_partial",
    "Thors.Props.C98_any_text_partial",
    "Thors.Props.C98_json_names",
    "Thors.Props.C98_json_stream_names",
    "Thors.Props.C98_bson_names",
    "Thors.Props.C98_bson_stream_names",
    "Thors.Props.C98_yaml_names",
    "Thors.Props.C98_dangling",
    "Thors.Props.C98_false"
   ],
   "note": "False as stated for plain pointers: they are deleted before the new value is known to be there and left dangling by an exception (C98_dangling, C98_false). The rest is proved: the object is of its type, and nothing dangles if there are no plain pointers; names that do not occur keep their values (in JSON for texts without backslashes). C98_object ties the model of the object after the call to the import."
  },
  {
   "property": "C99",
   "status": "proved",
   "theorems": [
    "Thors.Props.C99_json",
    "Thors.Props.C99_json_stream",
    "Thors.Props.C99_bson",
    "Thors.Props.C99_bson_stream",
    "Thors.Props.C99_yaml"
   ],
   "note": "For every input, not only documents. For JSON the whole report of the call is the same."
  },
  {
   "property": "C100",
   "status": "proved",
   "theorems": [
    "Thors.Props.C100_json",
    "Thors.Props.C100_json_stream",
    "Thors.Props.C100_bson",
    "Thors.Props.C100_yaml"
   ],
   "note": "In Exact mode each document has to be complete, so that mode is left out. From streams: if both imports succeed."
  },
  {
   "property": "C101",
   "status": "partial",
   "theorems": [
    "Thors.Props.C101_json_partial",
    "Thors.Props.C101_json_stream_partial",
    "Thors.Props.C101_bson_partial",
    "Thors.Props.C101_bson_stream_partial",
    "Thors.Props.C101_yaml_partial",
    "Thors.Props.C101_false"
   ],
   "note": "False for sequences, multisets and multimaps, which are added to (C101_false). Proved for all types in which none of these is read in place (sets with a proper comparison included), and documents without repeated names."
  },
  {
   "property": "C102",
   "status": "partial",
   "theorems": [
    "Thors.Props.C102_string_partial",
    "Thors.Props.C102_stream_partial",
    "Thors.Props.C102_false"
   ],
   "note": "Proved where the floating point types are double, or the document has no fractions. False for float: BSON rounds twice (C102_false)."
  },
  {
   "property": "C103",
   "status": "partial",
   "theorems": [
    "Thors.Props.C103_json_stream_partial",
    "Thors.Props.C103_bson_partial",
    "Thors.Props.C103_yaml_partial",
    "Thors.Props.C103_false_yaml",
    "Thors.Props.C103_false_bson"
   ],
   "note": "Proved for JSON streams (keys without escapes, no string ending in an escaped backslash), for BSON documents wrapped in one element with integers and plain strings, for YAML without string values. False beyond: YAML strings are captured without quotes, BSON strings without escapes, doubles with six digits, and of the BSON document {\"a\":1} only 1."
  },
  {
   "property": "C104",
   "status": "partial",
   "theorems": [
    "Thors.Props.C104_json_partial",
    "Thors.Props.C104_bson_partial",
    "Thors.Props.C104_yaml_partial",
    "Thors.Props.C104_false"
   ],
   "note": "Proved for types without optional elements, pointers to pointers and user filters (Solid); the way back where keys need no escaping and values survive the format (C21, C23, C27, C55, C65). False otherwise: a std::array of optionals that a short list has filled cannot be exported."
  },
  {
   "property": "C105",
   "status": "partial",
   "theorems": [
    "Thors.Props.C105_json_partial",
    "Thors.Props.C105_bson_partial",
    "Thors.Props.C105_yaml_partial",
    "Thors.Props.C105_false"
   ],
   "note": "Proved for the same types, keys without characters to escape, floating point values that survive the format. False otherwise: keys are not escaped, so two maps can have the same text; in YAML a null pointer and a pointer to the string null."
  },
  {
   "property": "C106",
   "status": "partial",
   "theorems": [
    "Thors.Props.C106_stream_ends_partial",
    "Thors.Props.C106_string_ends_partial",
    "Thors.Props.C106_same",
    "Thors.Props.C106_string_same",
    "Thors.Props.C106_round",
    "Thors.Props.C106_false"
   ],
   "note": "Proved for streams in every mode and for strings in the modes Strict and Exact, for all types without fixed-size arrays, with anything in the place of values that are indeterminate after a short read. False for strings in Weak mode: a negative size makes the import loop for ever, a size that is too large makes it read behind the end of the string; and a short stream gives an indeterminate size."
  },
  {
   "property": "C107",
   "status": "partial",
   "theorems": [
    "Thors.Props.C107_ends_partial",
    "Thors.Props.C107_false",
    "Thors.Props.C107_false_pointers"
   ],
   "note": "Proved for every stream whose text does not end in a backslash, for all types without fixed-size arrays, tuples and containers of pointers. False for a text that breaks off behind a backslash in a string that has an escaped quote, and for containers of pointers: both import for ever, allocating."
  },
  {
   "property": "C108",
   "status": "partial",
   "theorems": [
    "Thors.Props.C108_strings_partial",
    "Thors.Props.C108_streams_partial",
    "Thors.Props.C108_grammar",
    "Thors.Props.C108_false",
    "Thors.Props.C108_false_index",
    "Thors.Props.C108_false_weak"
   ],
   "note": "Proved for all bytes (in Weak mode: below 0x80) with the rules `blax`: lengths, terminators of containers, keys and the lengths of scalars are those of the standard. False with the rules of the standard: the terminator of a string and the keys of arrays are not checked; in Weak mode strings of negative length are skipped."
  },
  {
   "property": "C109",
   "status": "partial",
   "theorems": [
    "Thors.Props.C109_tail_partial",
    "Thors.Props.C109_failure",
    "Thors.Props.C109_scalar",
    "Thors.Props.C109_false"
   ],
   "note": "Proved for all documents that are arrays or objects. False for scalars at the top: the check reads the terminator of the document around the scalar as trailing data, and the destructor that then misses it throws during the unwinding: std::terminate."
  },
  {
   "property": "C110",
   "status": "partial",
   "theorems": [
    "Thors.Props.C110_bson_partial",
    "Thors.Props.C110_yaml_partial",
    "Thors.Props.C110_json_stream_partial",
    "Thors.Props.C110_json_string",
    "Thors.Props.C110_bson_null",
    "Thors.Props.C110_false"
   ],
   "note": "Proved for graphs without cycles, values that the formats can bring back (C23, C27, C55) and Weak and Strict mode. False for cycles and Exact mode (C35), and in BSON for shared pointers at the top to anything but a class (C110_false)."
  },
  {
   "property": "C111",
   "status": "proved",
   "theorems": [
    "Thors.Props.C111_json",
    "Thors.Props.C111_json_any",
    "Thors.Props.C111_json_stream",
    "Thors.Props.C111_bson",
    "Thors.Props.C111_bson_stream",
    "Thors.Props.C111_yaml"
   ],
   "note": "For every input. Proved about the types of Model/Shared.lean: classes, sequences and shared pointers to them; types without shared pointers as in C94."
  },
  {
   "property": "C112",
   "status": "proved",
   "theorems": [
    "Thors.Props.C112_json",
    "Thors.Props.C112_json_stream",
    "Thors.Props.C112_bson",
    "Thors.Props.C112_bson_stream",
    "Thors.Props.C112_yaml",
    "Thors.Props.C112_order",
    "Thors.Props.C112_reference",
    "Thors.Props.C112_object"
   ],
   "note": "For every document of each format (for BSON: of the kind that the type asks for)."
  },
  {
   "property": "C113",
   "status": "partial",
   "theorems": [
    "Thors.Props.C113_json_exact_partial",
    "Thors.Props.C113_json_stream_exact_partial",
    "Thors.Props.C113_bson_exact_partial",
    "Thors.Props.C113_bson_stream_exact_partial",
    "Thors.Props.C113_yaml_exact_partial",
    "Thors.Props.C113_json_numbered_partial",
    "Thors.Props.C113_json_stream_numbered_partial",
    "Thors.Props.C113_bson_numbered_partial",
    "Thors.Props.C113_yaml_numbered_partial",
    "Thors.Props.C113_false"
   ],
   "note": "Proved in Exact mode for all inputs, with the exceptions of C83, C91, C106 and C107; in the other modes for all documents whose handles say their numbers. False for an object without `sharedPtrName` (C113_false)."
  },
  {
   "property": "C114",
   "status": "proved",
   "theorems": [
    "Thors.Props.C114_json",
    "Thors.Props.C114_json_any",
    "Thors.Props.C114_json_stream",
    "Thors.Props.C114_bson",
    "Thors.Props.C114_bson_stream",
    "Thors.Props.C114_yaml"
   ],
   "note": "For every input, as C111. Imports that fail are not covered: an exception carries no state in the model."
  },
  {
   "property": "C115",
   "status": "partial",
   "theorems": [
    "Thors.Props.C115_json_partial",
    "Thors.Props.C115_read_json",
    "Thors.Props.C115_read_json_stream",
    "Thors.Props.C115_shape_json",
    "Thors.Props.C115_bson",
    "Thors.Props.C115_bson_size",
    "Thors.Props.C115_read_bson",
    "Thors.Props.C115_read_bson_stream",
    "Thors.Props.C115_yaml",
    "Thors.Props.C115_read_yaml",
    "Thors.Props.C115_false"
   ],
   "note": "BSON and YAML for all texts, JSON for the texts of numbers, true, false and null. False for JSON texts with quotes, which are escaped, and for the failure of operator>>, which is ignored (C115_false). Objects alone and in a std::vector; the class has to say the length of its text for BSON."
  },
  {
   "property": "C116",
   "status": "partial",
   "theorems": [
    "Thors.Props.C116_print_partial",
    "Thors.Props.C116_names",
    "Thors.Props.C116_distinct_partial",
    "Thors.Props.C116_operators",
    "Thors.Props.C116_false"
   ],
   "note": "Proved for the values all of whose flags have names. Writing any other value is undefined behaviour (C116_false)."
  },
  {
   "property": "C117",
   "status": "partial",
   "theorems": [
    "Thors.Props.C117_history",
    "Thors.Props.C117_history_document",
    "Thors.Props.C117_locked_partial",
    "Thors.Props.C117_false",
    "Thors.Props.C117_failed_false"
   ],
   "note": "The text of a value stands in one static buffer of the program. Proved: an import that succeeds gives the same value after any history, for any input; threads do not disturb each other if none runs between filling and copying of another. False: without a lock one thread reads the text of another (C117_false); an import that fails can leave bytes of earlier documents in the object (C117_failed_false). A step of a thread is the filling or the copying of the buffer as a whole."
  },
  {
   "property": "C118",
   "status": "partial",
   "theorems": [
    "Thors.Props.C118_json_partial",
    "Thors.Props.C118_yaml",
    "Thors.Props.C118_bson_partial",
    "Thors.Props.C118_typed",
    "Thors.Props.C118_false"
   ],
   "note": "YAML in full. JSON where the indentation fits its buffer (C25). BSON if all enumerators have names; else it is false (C118_false): the size of an enumerator without a name is taken through the end iterator of the table. C118_typed: every value of C94, so everything an import delivers, is among the values of C118_bson_partial."
  },
  {
   "property": "C119",
   "status": "partial",
   "theorems": [
    "Thors.Props.C119_json",
    "Thors.Props.C119_json_goes_on",
    "Thors.Props.C119_json_string",
    "Thors.Props.C119_bson",
    "Thors.Props.C119_yaml",
    "Thors.Props.C119_yaml_partial",
    "Thors.Props.C119_yaml_arrays",
    "Thors.Props.C119_yaml_enums",
    "Thors.Props.C119_yaml_start",
    "Thors.Props.C119_false",
    "Thors.Props.C119_root_false",
    "Thors.Props.C119_yaml_output_false"
   ],
   "note": "JSON and BSON proved for streams without exceptions (with them: C93_loud_false). YAML decided exactly (C119_yaml): it is false whenever the failure comes while a value is awaited, that is behind a key or before the first event, and whenever the output takes nothing; then the destructors of the serialiser throw and std::terminate follows. Libyaml is assumed to be an Emitter of Spec/YamlEvents.lean."
  },
  {
   "property": "C120",
   "status": "partial",
   "theorems": [
    "Thors.Props.C120_string_partial",
    "Thors.Props.C120_enums_false",
    "Thors.Props.C120_optional_false",
    "Thors.Props.C120_false"
   ],
   "note": "Strings are left alone by a failed JSON export (C120_string_partial). On streams it is false: the destructors close the open arrays, so exactly the document of the shorter sequence is left, for all sequences (C120_enums_false, C120_optional_false); a consumer imports it without complaint (C120_false). That a failure behind a key leaves no document is not proved in general."
  },
  {
   "property": "C121",
   "status": "partial",
   "theorems": [
    "Thors.Props.C121_json",
    "Thors.Props.C121_bson",
    "Thors.Props.C121_read",
    "Thors.Props.C121_missing",
    "Thors.Props.C121_false"
   ],
   "note": "JSON and BSON proved; reading proved in all formats. False for writing YAML, for every class (C121_false): YamlPrinter::formatType() answers Json, so the cast to JsonPrinter throws std::bad_cast; alone or as a member the program is ended (C119)."
  },
  {
   "property": "C122",
   "status": "partial",
   "theorems": [
    "Thors.Props.C122_yaml_string_partial",
    "Thors.Props.C122_first_line",
    "Thors.Props.C122_false",
    "Thors.Props.C122_stream_end"
   ],
   "note": "Proved for block size 0; for every block size the text is that of the stream without the indentation of the first line, and nothing is written outside. False for every block size above 0 (C122_false): YamlPrinter::firstLine is set in the counting pass and not reset. Rests on libyaml writing nothing at the end of the stream (C122_stream_end: otherwise undefined)."
  },
  {
   "property": "C123",
   "status": "partial",
   "theorems": [
    "Thors.Props.C123_json_weak_partial",
    "Thors.Props.C123_bson_weak_partial",
    "Thors.Props.C123_yaml_weak_partial",
    "Thors.Props.C123_json_false",
    "Thors.Props.C123_bson_false",
    "Thors.Props.C123_yaml_false"
   ],
   "note": "Proved in Weak mode if no member has the name of the type field (members: any values that come back by C23, C27, C55). False in the modes Strict and Exact, for every object of every such class: the export has the type field, which the import by value takes for an unknown member."
  },
  {
   "property": "C124",
   "status": "partial",
   "theorems": [
    "Thors.Props.C124_json_partial",
    "Thors.Props.C124_bson_partial",
    "Thors.Props.C124_yaml_partial",
    "Thors.Props.C124_unknown_refused",
    "Thors.Props.C124_yaml_unknown_refused",
    "Thors.Props.C124_false",
    "Thors.Props.C124_same_name_false"
   ],
   "note": "Proved for alternatives with different class names that use the type field of the first one (members: any values that come back by C23, C27, C55; BSON: variants in a vector). False for an alternative with another type field than the first one, and for the second of two alternatives with the same class name."
  },
  {
   "property": "C125",
   "status": "partial",
   "theorems": [
    "Thors.Props.C125_digits_partial",
    "Thors.Props.C125_false",
    "Thors.Props.C125_json_false"
   ],
   "note": "Proved: 24 digits of either case give the numbers they denote. False: no text is ever refused; texts without dashes that have 19 or more characters besides white space are taken for an ObjectID, shorter ones use an uninitialised variable."
  },
  {
   "property": "C126",
   "status": "partial",
   "theorems": [
    "Thors.Props.C126_order_partial",
    "Thors.Props.C126_total",
    "Thors.Props.C126_false"
   ],
   "note": "Proved for time stamps with the same increment or the same time, and that == is equality and the order is total. False otherwise: the increment is compared first."
  },
  {
   "property": "C127",
   "status": "partial",
   "theorems": [
    "Thors.Props.C127_object_id_partial",
    "Thors.Props.C127_time_stamp_partial",
    "Thors.Props.C127_fill_false",
    "Thors.Props.C127_next_false",
    "Thors.Props.C127_showbase_false"
   ],
   "note": "Proved: text, flags and precision, on streams without showbase, uppercase and left (time stamps: and without a width). False: the fill character stays `0`; with showbase the text is longer than 24 characters."
  },
  {
   "property": "C128",
   "status": "partial",
   "theorems": [
    "Thors.Props.C128_exactly_partial",
    "Thors.Props.C128_json_taken",
    "Thors.Props.C128_false"
   ],
   "note": "Proved: exactly which texts are taken (if and only if), for every text from a seekable stream; all integers of JSON without leading zeros are among them. False: so are `--5`, `-+5`, `+5`, `--` and, for unsigned types, `-`."
  },
  {
   "property": "C129",
   "status": "partial",
   "theorems": [
    "Thors.Props.C129_exactly_partial",
    "Thors.Props.C129_false"
   ],
   "note": "Proved: exactly which texts are taken (if and only if), for every text from a seekable stream: what begins with a digit, a sign or a point. False: so `-`, `+`, `.` and `1e` are read as zero."
  },
  {
   "property": "C130",
   "status": "partial",
   "theorems": [
    "Thors.Props.C130_hex_partial",
    "Thors.Props.C130_reads_partial",
    "Thors.Props.C130_false",
    "Thors.Props.C130_seconds_false"
   ],
   "note": "False: operator<< writes a calendar date, operator>> reads a hexadecimal number; reading back gives 15 on Fridays and an error with 0 on all other days, so no date but 0 and 15 comes back, in any zone. Proved: what reading does understand, numbers in hexadecimal digits. JSON and BSON round trip (C48)."
  },
  {
   "property": "C131",
   "status": "partial",
   "theorems": [
    "Thors.Props.C131_partial",
    "Thors.Props.C131_false",
    "Thors.Props.C131_injected"
   ],
   "note": "False for keys with a NUL: the key is written with its NULs and without a check. For all names a and b and values m and n one key is given whose one entry map has the bytes of the map {a: m, b: n}, and is read back as that. Proved for all other keys."
  },
  {
   "property": "C132",
   "status": "partial",
   "theorems": [
    "Thors.Props.C132_partial",
    "Thors.Props.C132_false"
   ],
   "note": "False: keys are written between quotes without escapes. For all names a < b and numbers m and n, in every layout, the map with the one key a\":m,\"b is read back as the map {a: m, b: n}. Proved for keys without quotes, backslashes and control characters."
  },
  {
   "property": "C133",
   "status": "partial",
   "theorems": [
    "Thors.Props.C133_json_partial",
    "Thors.Props.C133_bson_partial",
    "Thors.Props.C133_yaml_partial",
    "Thors.Props.C133_false"
   ],
   "note": "False for members that are containers: their contents add up. Proved for members that are numbers, bools, strings, enumerations or pointers, at any depth."
  },
  {
   "property": "C134",
   "status": "proved",
   "theorems": [
    "Thors.Props.C134_import",
    "Thors.Props.C134_import_bson",
    "Thors.Props.C134_import_yaml",
    "Thors.Props.C134_import_stream",
    "Thors.Props.C134_export",
    "Thors.Props.C134_export_map",
    "Thors.Props.C134_export_tuple",
    "Thors.Props.C134_export_yaml",
    "Thors.Props.C134_export_map_yaml",
    "Thors.Props.C134_export_tuple_yaml"
   ],
   "note": "As an equivalence: import succeeds exactly if all elements do. Weak mode needs documents whose strings can be skipped (C16)."
  },
  {
   "property": "C135",
   "status": "proved",
   "theorems": [
    "Thors.Props.C135_import",
    "Thors.Props.C135_import_bson",
    "Thors.Props.C135_import_yaml",
    "Thors.Props.C135_import_stream",
    "Thors.Props.C135_succeeds"
   ],
   "note": "What the JSON object does not name stays as it was (C97); repeated keys are C133. Weak mode needs documents whose strings can be skipped (C16)."
  },
  {
   "property": "C136",
   "status": "proved",
   "theorems": [
    "Thors.Props.C136_class",
    "Thors.Props.C136_pointer",
    "Thors.Props.C136_variant",
    "Thors.Props.C136_class_yaml",
    "Thors.Props.C136_pointer_yaml",
    "Thors.Props.C136_variant_yaml"
   ],
   "note": "Which members are written is Spec/Members.lean. The other layouts add only white space (C22)."
  },
  {
   "property": "C137",
   "status": "proved",
   "theorems": [
    "Thors.Props.C137_import",
    "Thors.Props.C137_succeeds",
    "Thors.Props.C137_import_yaml",
    "Thors.Props.C137_import_bson",
    "Thors.Props.C137_import_stream"
   ],
   "note": "Repeated keys are C39. Weak mode needs documents whose strings can be skipped (C16)."
  },
  {
   "property": "C138",
   "status": "proved",
   "theorems": [
    "Thors.Props.C138_import",
    "Thors.Props.C138_succeeds",
    "Thors.Props.C138_import_yaml",
    "Thors.Props.C138_import_bson",
    "Thors.Props.C138_import_stream"
   ],
   "note": "A JSON array with more elements than places is C40. Weak mode needs documents whose strings can be skipped (C16)."
  },
  {
   "property": "C139",
   "status": "proved",
   "theorems": [
    "Thors.Props.C139_optional",
    "Thors.Props.C139_optional_stream",
    "Thors.Props.C139_optional_yaml",
    "Thors.Props.C139_pointer",
    "Thors.Props.C139_null",
    "Thors.Props.C139_pointer_stream",
    "Thors.Props.C139_null_stream",
    "Thors.Props.C139_pointer_yaml",
    "Thors.Props.C139_null_yaml",
    "Thors.Props.C139_optional_null",
    "Thors.Props.C139_export",
    "Thors.Props.C139_export_yaml"
   ],
   "note": "A BSON document cannot be an optional (C27). Empty optionals are left out of classes (C41). Polymorphic pointers are C36."
  },
  {
   "property": "C140",
   "status": "proved",
   "theorems": [
    "Thors.Props.C140_spelling",
    "Thors.Props.C140_spelling_stream",
    "Thors.Props.C140_white_space"
   ],
   "note": "If both documents are refused, the error may differ unless white space is the only difference."
  }
 ]
}