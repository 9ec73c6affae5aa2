# A Lean 4 model of ThorsSerializer

`/verif/lean/Verif` contains a formal model of the code in `/repo/src/Serialize` and theorems about
it. The properties are listed in `properties.jsonl`, the theorem names in `MANIFEST.json` (all in the
namespace `Thors.Props`), and the wrong-program experiments in `seeded/LOG.jsonl`.

## 1. Layout

| path | content |
|------|---------|
| `Verif/Model/*.lean` | the model, one file per part of the code; every definition cites the lines it models and says what it simplifies |
| `Verif/Spec/*.lean`  | small specifications written without the model: RFC 8259 text and strings, JSON events, UTF-8, decimal numbers, BSON documents, byte order, hexadecimal, layouts, "the value that should come back" |
| `Verif/Proofs/*.lean`| helper lemmas |
| `Verif/Props/*.lean` | the property theorems, each with an `example` that meets its hypotheses |

A reader who wants to check what is claimed needs `properties.jsonl`, `Props/*.lean`, the `Spec` files these
import, and the `Model` files; nothing in `Proofs` has to be trusted.

## 2. Modelling conventions

* A byte is a `UInt8`, a `std::string` a list of bytes, an integer an `Int` together with its C++ type
  `IntKind` (width and signedness).
* A C++ function returns `Res α = ok a | throw e | ub`. `ub` is a separate outcome and covers undefined
  behaviour, the use of an indeterminate value, and (see the next point) runs that never end. A theorem
  that concludes `= .ok _` therefore says that none of these happens; a theorem that concludes "not `ok`"
  says only that nothing is accepted.
* Recursion through the input (`ignoreTheValue`, the deserialiser) is defined with Lean's
  `partial_fixpoint`, a least fixed point with bottom `ub`, so no fuel or bound is involved. Everything
  else is structural recursion over the data, or recursion over the remaining input.
* A member function that changes its object returns the new object. Input is `StringInput` over a
  `std::string_view` (explicit data, position and state); output is the list of writes made on the stream,
  and for `std::string` targets the two-pass protocol of `StringOutput` on an explicit buffer.
* The type-directed template code (`Traits<T>`, `DeSerializationForBlock<...>`, `SerializerForBlock<...>`)
  is modelled by a deep embedding: `Ty` of types, `Val` of values, `Env` of the classes, enumerations,
  tuples, variants and polymorphic registrations of a program. Template instantiation becomes recursion
  over `Ty`. All theorems quantify over the environment, so over all user programs with such types.
* The virtual `ParserInterface` is the record of operations `POps σ`; the deserialiser is modelled once
  and instantiated with the JSON and the BSON parser.

## 3. How the main results are proved

1. *Text level.* Escaping, unescaping, number scanning and tokenising are shown to follow the grammar in
   `Spec` by induction over the text (`Proofs/JsonString*.lean`, `JsonInt.lean`, `JsonScan.lean`, `Unicode.lean`).
2. *Token level.* For a whole document the parser produces the events of its tree (`Proofs/JsonPresents.lean`,
   `BsonPresents.lean`), by induction over the tree with an invariant for the parser's stack.
3. *Import.* `import_refines` (`Proofs/Presents.lean`): on a presented tree the deserialiser computes the same as
   `imp`, a function of the tree that knows nothing of bytes, tokens or push back. Properties of members,
   containers, modes and order are proved about `imp` and carried over (`jsonImport_doc`, `bsonImport_doc`).
4. *Export.* The serialiser's calls are the tree of the value (`Proofs/SerDoc.lean`), and the printers turn
   them into text/bytes of that tree (`JsonPrint.lean`, `JsonExport.lean`, `BsonPrint.lean`, `BsonExport.lean`).
5. *Round trip.* `imp` inverts the encoding of every well typed value (`Proofs/RoundTrip.lean`), for every format
   whose scalars are faithful.
6. *Never accepted.* `Proofs/Watch.lean` proves by fixed point induction that an invariant of the parser is
   kept through any import, whatever the input; used for truncated data.

Where the code does not have the property the negation is proved on a concrete witness (`Cxx_false...`) and
the largest true part is proved under the suffix `_partial`; section 5 lists these places.

## 4. Plan and result per property

| id | property | model | proof | status | theorems |
|----|----|----|----|----|----|
| C01 | Every string survives a JSON round trip | `escapeString`, `getStringInto`, `checkEscape`, `UnicodeWrapperIterator` over `StringInput` | induction over the string; the scan to the closing quote by an invariant on backslash parity | proved | `C01_string_round_trip` |
| C02 | A JSON string value is always emitted as a legal RFC 8259 string token | `escapeString` | induction, against the RFC string grammar in `Spec/JsonString.lean` | proved | `C02_emitted_string_is_legal`, `C02_token_ends_at_final_quote` |
| C03 | JSON string literals decode to the text RFC 8259 assigns to them | `UnicodeWrapperIterator` | induction over the items of the literal, UTF-8 from `Spec/Utf8.lean` | proved | `C03_literal_decoding` |
| C04 | Surrogate pairs decode to the code point they denote | same | arithmetic over all surrogate pairs | partial | `C04_surrogate_pairs_partial`, `C04_what_surrogates_decode_to`, `C04_bodies_partial`, `C04_false` |
| C05 | Malformed string escapes are rejected and never read outside the string | same; reads outside the buffer are `ub` | induction on the remaining input | proved | `C05_string_reading_is_safe`, `C05_only_well_formed_accepted`, `C05_unterminated_fails` |
| C06 | Decoding a string in place is the same as decoding it into fresh storage | one buffer with a read and a write cursor | invariant: write cursor <= read cursor | proved | `C06_in_place_is_fresh` |
| C07 | The two escape decoders agree | both decoders as state machines | simulation | proved | `C07_decoders_agree` |
| C08 | Every integer survives a JSON round trip | `to_chars`/`from_chars` by contract, `ReadValue`, `scan` | induction on digits | proved | `C08_int_round_trip` |
| C09 | An integer literal that does not fit is reported, not silently replaced | same | same | partial | `C09_value_exact_partial`, `C09_false` |
| C10 | Numbers with leading zeros are rejected | `checkZero` | case analysis on the scanned literal, for all literals | partial | `C10_leading_zeros_partial`, `C10_which_zeros_rejected`, `C10_false` |
| C11 | The JSON reader accepts only grammatical token sequences | transition table and `getNextToken` | invariant relating the stack to an open prefix of the grammar | proved | `C11_only_grammatical` |
| C12 | The JSON reader accepts every grammatical document | `JsonP` over bytes | induction over the document tree | proved | `C12_document_events`, `C12_accepts_every_document` |
| C13 | The JSON reader never closes a container that was not opened | same | invariant over all histories of client operations | proved | `C13_no_underflow` |
| C14 | Document end is delivered once and errors are final | same | same | proved | `C14_end_once_errors_final` |
| C15 | Pushed back tokens come back in last-in first-out order | `getToken`/`pushBackToken` | refinement to a stack | partial | `C15_lifo_partial`, `C15_third_token_lost` |
| C16 | Skipping an unknown member consumes exactly that member's value | `ignoreTheValue` on JSON | induction over the skipped value | partial | `C16_skip_exact_partial`, `C16_false_for_backslash` |
| C17 | Strict mode rejects unknown members | class case of the deserialiser | `imp` over the member list; Watch-style argument for arbitrary values | proved | `C17_strict_rejects`, `C17_strict_throws`, `C17_weak_ignores`, `C17_bson_strict_rejects`, `C17_stream_strict_rejects`, `C17_stream_weak_ignores`, `C17_yaml_strict_rejects`, `C17_yaml_weak_ignores` |
| C18 | Exact mode requires every member | `HeedAllValues` | induction over members and parents | partial | `C18_exact_requires_all`, `C18_exact_is_strict_partial`, `C18_false_with_overrides`, `C18_bson_exact_requires_all`, `C18_stream_exact_requires_all`, `C18_yaml_exact_requires_all` |
| C19 | Member order in the input does not matter | same | induction over permutations (adjacent transpositions) | proved | `C19_order_irrelevant`, `C19_bson_order_irrelevant`, `C19_stream_order_irrelevant`, `C19_yaml_order_irrelevant` |
| C20 | Every exported JSON document is well formed | serialiser and `JsonPrinter` | induction over `Ty`/`Val` | proved | `C20_export_is_well_formed`, `C20_unrepresentable_is_refused` |
| C21 | Object keys are emitted as legal JSON strings | `addKey` | as C20, for keys | partial | `C21_keys_partial`, `C21_false` |
| C22 | Layout only changes insignificant whitespace | the three layouts, any tab size | the tokens are the same by induction over the calls | proved | `C22_layout_is_white_space` |
| C23 | JSON print then parse is the identity | everything for JSON | `json_round_trip`: encoding inverted by `imp` | partial | `C23_round_trip_partial`, `C23_false` |
| C24 | Output to std::string never writes outside its buffer | `StringOutput` | simulation of the sizing pass by the writing pass | proved | `C24_two_passes`, `C24_export_to_string`, `C24_bson_export_to_string` |
| C25 | Indentation never reads outside its buffer | `printIndent` | bound on the column | partial | `C25_indent_inside_partial`, `C25_exact`, `C25_false` |
| C26 | BSON size headers equal the bytes they cover | `getPrintSize`, `BsonPrinter` | induction over `Ty`/`Val` | partial | `C26_sizes_partial`, `C26_framed_length`, `C26_false_strings`, `C26_false_classes` |
| C27 | BSON print then parse is the identity | everything for BSON | `bson_round_trip` | partial | `C27_round_trip_partial`, `C27_null_refused`, `C27_false` |
| C28 | BSON strings are stored verbatim | string elements | induction over the string | partial | `C28_verbatim_partial`, `C28_stored_escaped`, `C28_read_verbatim`, `C28_false` |
| C29 | The space reserved for BSON array index keys is exact | `getPrintSize` of arrays | induction on the number of elements | proved | `C29_index_keys`, `C29_index_written` |
| C30 | Skipping an unknown BSON element consumes exactly that element | `ignoreTheValue` on BSON | induction over the element | proved | `C30_unknown_skipped`, `C30_position` |
| C31 | BSON integers are read without changing their value | `getIntValue` | casts on all integers | partial | `C31_exact_partial`, `C31_others_rejected`, `C31_false` |
| C32 | Fixed-width integer encodings invert each other | `readLE`/`writeLE`/`readBE`/`writeBE` | induction over the width | proved | `C32_little_endian`, `C32_big_endian`, `C32_short_read_indeterminate` |
| C33 | Truncated BSON is never accepted | the whole BSON import | Watch: an invariant on position and promised length through any import | partial | `C33_never_accepted_partial`, `C33_cut_never_accepted_partial`, `C33_export_cut_partial`, `C33_false` |
| C34 | Enum values round trip and foreign names are rejected | enumeration block | induction over the table | proved | `C34_enum_round_trip`, `C34_foreign_name_rejected`, `C34_unregistered_value_rejected`, `C34_stream_foreign_name_rejected`, `C34_yaml_foreign_name_rejected` |
| C35 | Shared pointers keep their sharing | `addShared`, `getShared`, handles in a memory of objects | induction on the rank of objects in the acyclic graph for the export (invariant of the table of first handles); induction on the document for the import (invariant: the table is a bijection between written and made objects) | partial | `C35_same_graph_partial`, `C35_unknown_name`, `C35_exact_rejects`, `C35_false` |
| C36 | Polymorphic objects come back as the class they were | polymorphic registry | instance of the round trip with the registry | partial | `C36_dynamic_class_restored_partial`, `C36_unknown_class_rejected`, `C36_stream_unknown_class_rejected`, `C36_yaml_unknown_class_rejected`, `C36_bson_unknown_class_rejected`, `C36_false`, `C36_second_base_false` |
| C37 | Import outcome is decided by the documented policy | `extract`, `inserter` | case analysis over all outcomes and flags | proved | `C37_import_outcome`, `C37_export_outcome` |
| C38 | Trailing data is detected exactly | `extract` with the trailing data check | text level lemmas about what follows a value | proved | `C38_blank_tail_accepted`, `C38_trailing_data_rejected`, `C38_unchecked_tail_ignored` |
| C39 | Associative containers resolve duplicate keys as their C++ type does | container inserters | induction over the entries | partial | `C39_map_last_wins_partial`, `C39_unordered_first_wins`, `C39_multimap_keeps_all`, `C39_yaml_map_last_wins_partial`, `C39_yaml_unordered_first_wins`, `C39_yaml_multimap_keeps_all`, `C39_bson_map_last_wins_partial`, `C39_bson_unordered_first_wins`, `C39_bson_multimap_keeps_all`, `C39_false_for_containers` |
| C40 | Fixed-size containers are not overrun by long input | inserters of `std::array` and `std::tuple` | induction over the elements | partial | `C40_array_inside_partial`, `C40_tuple_inside_partial`, `C40_array_overrun`, `C40_false` |
| C41 | Optional members are absent exactly when empty | `std::optional` members | case analysis inside the class block | partial | `C41_optional_members_partial`, `C41_false` |
| C42 | Filtered and inherited members | filters and parents | induction over members and parents | proved | `C42_written_members`, `C42_read_back`, `C42_parents_read_back` |
| C43 | ObjectID text and binary forms round trip | ObjectID text, JSON, BSON | radix lemmas by induction over digits and bytes | proved | `C43_text`, `C43_constructor`, `C43_binary`, `C43_exactly_these`, `C43_json`, `C43_element`, `C43_generated_fits` |
| C44 | YAML events become the same token stream as JSON | the event state machine of `YamlParser` | induction over the value | proved | `C44_yaml_tokens`, `C44_same_tokens_as_json` |
| C45 | Reading primitives of the string input stay inside the string | every `StringInput` operation, every lexer function | invariant: position inside, and how far each step moves | proved | `C45_primitives_inside`, `C45_answers_inside`, `C45_get_unget`, `C45_json_reader_inside` |
| C46 | A captured raw block denotes the same JSON value | `AnyBlock` | induction over the captured value | partial | `C46_any_block_partial`, `C46_any_block_stable_partial`, `C46_false_for_escaped_keys`, `C46_false_for_utf8`, `C46_false_for_backslash` |
| C47 | A fractional or exponent number is never truncated into an integer | `ReadValue::validateResult`, `scan` | case analysis on the literal, for all continuations | proved | `C47_fraction_not_truncated` |
| C48 | Mongo dates, time stamps, binary data, code and regular expressions round trip | the BSON and JSON forms of the Mongo types | reading at any place of any input | proved | `C48_date_time`, `C48_time_stamp`, `C48_binary_data`, `C48_javascript`, `C48_regex`, `C48_date_time_json`, `C48_time_stamp_json` |
| C49 | asDateTime keeps the instant | `asDateTime` | integer arithmetic | partial | `C49_as_date_time_partial`, `C49_false` |
| C50 | Time stamps are stored as bsonspec prescribes | `writeBE` of the halves | byte order lemmas | partial | `C50_stored_partial`, `C50_false` |
| C51 | Text, bytes and order of an ObjectID agree | ObjectID text, bytes, `operator<` | lexicographic order of fixed width digits by induction | proved | `C51_text_is_hex_of_bytes`, `C51_order_is_text_order` |
| C52 | to_string gives the current value | `to_string` | case analysis; witness | partial | `C52_to_string_partial`, `C52_false` |
| C53 | Every element the library writes can be skipped | `ignoreDataValue` | position arithmetic for every payload | partial | `C53_skip_like_read_partial`, `C53_false` |
| C54 | A Mongo type is not read from an element of another type | `readCustom` | case analysis; witness for every identifier | partial | `C54_not_a_value_partial`, `C54_false` |
| C55 | YAML export followed by import is the identity | `YamlPrinter` as events, `YamlParser` over events | the generic round trip with YAML's scalars | partial | `C55_yaml_round_trip_partial`, `C55_false` |
| C56 | Only complete plain YAML documents are accepted | `YamlParser` over events | Watch: from any defect on, the end of the document is never announced; induction over the node | proved | `C56_only_complete_plain_documents` |
| C57 | YAML integers are exact or refused | `scan`, `strtol` and `strtoul` by contract | case analysis over all texts | partial | `C57_yaml_integers_partial`, `C57_not_a_number`, `C57_false` |
| C58 | libyaml's buffering is invisible | the two callbacks handed to libyaml | induction over the chunks | proved | `C58_input_chunks`, `C58_output_chunks` |
| C59 | JSON documents mean the same when read as YAML | JSON and YAML import | monotonicity of the specification `imp` in the meaning of scalars | partial | `C59_json_in_yaml_partial`, `C59_false` |
| C60 | Reading from a stream and from a string gives the same | `std::istream` (get, peek, unget, getline, read, ignore, extraction, `num_get`), lexer and parser over it | the refinement of C12 and C19 again, over an abstract source of lexemes; monotonicity of `imp` in the meaning of scalars | partial | `C60_string_then_stream_partial`, `C60_agree_in_range_partial`, `C60_extract_agrees_partial`, `C60_false`, `C60_false_unseekable`, `C60_false_hang` |
| C61 | Several documents in one stream | the same | induction over the documents: each import ends in front of the next one | proved | `C61_documents_in_sequence` |
| C62 | JSON numbers are read as the nearest floating point value | `fromCharsF` (contract of `std::from_chars`), `checkZero`, `scan` | correct rounding against `Nearest`: quotient and remainder bounds for all numerators and denominators; induction over the digits of the text | partial | `C62_number_nearest_partial`, `C62_import_nearest_partial`, `C62_value_nearest_partial`, `C62_false` |
| C63 | Floating point values are printed as JSON numbers | `FormatDouble`, `to_chars` fixed with six places, `ostream <<` with six digits (contracts) | the text against the grammar `JsonNumber`; induction over digits | partial | `C63_text_is_number_partial`, `C63_false`, `C63_infinity_false` |
| C64 | Floating point values survive JSON in a string | same | error of rounding twice, for all mantissas and exponents | partial | `C64_millionths_partial`, `C64_decimals_partial`, `C64_error_partial`, `C64_false` |
| C65 | Floating point values survive JSON on a stream | same | the decimal exponent by uniqueness; relative error of normal values | partial | `C65_decimals_partial`, `C65_false` |
| C66 | Floating point values exported to std::string stay inside its buffer | `to_chars` into the string, `StringOutput` two passes | length bound of the fixed text for all values; exact overflow witnesses | partial | `C66_string_is_well_formed_partial`, `C66_false` |
| C67 | Floating point values survive BSON | `castFlt` (conversion to double), `doubleBits`, `BsonPrinter` and `BsonParser` | widening is exact and narrowing undoes it, for all mantissas; encoding against `Binary64` | partial | `C67_float_double_partial`, `C67_false` |
| C68 | BSON numbers are read into floating point types as the nearest value | `getFloatValue` | correct rounding for all integers and doubles | proved | `C68_integers`, `C68_doubles`, `C68_others_rejected` |
| C69 | YAML numbers are stored as the nearest floating point value, or refused | `YamlParser::scan`, `strtod` by contract | the grammar `JsonNumber` against the scanner; correct rounding | partial | `C69_yaml_nearest_partial`, `C69_false` |
| C70 | JSON numbers read from a stream are stored as the nearest floating point value, or refused | `num_get` for floating point types (the accumulation of [facet.num.get]) | the grammar `JsonNumber` against the accumulation; correct rounding | partial | `C70_stream_nearest_partial`, `C70_false` |
| C71 | A set imported from an array has the distinct elements in order | `SeqKind`, `SeqKind.insert`: `std::set::insert` by contract; comparisons are a parameter of the program | invariant of the insertions: ascending, and an element is there exactly if nothing equivalent stands before it | proved | `C71_set_import`, `C71_nothing_lost`, `C71_set_import_yaml`, `C71_set_import_bson` |
| C72 | A multiset imported from an array keeps every element | `multisetInsert` by contract | invariant of the insertions: permutation, order, order among equivalents | proved | `C72_multiset_import`, `C72_multiset_import_yaml`, `C72_multiset_import_bson` |
| C73 | An unordered set imported from an array has the distinct elements | `hashInsert` by contract (the order of the list has no meaning) | as C71 with an equality | proved | `C73_unordered_set_import`, `C73_unordered_set_import_yaml`, `C73_unordered_set_import_bson` |
| C74 | The order of an array does not matter for sets | as C71, C72 | ordered lists with the same elements are the same | proved | `C74_set_order_irrelevant`, `C74_multiset_order_irrelevant` |
| C75 | Maps with other keys than strings keep the first of repeated keys | maps with other keys: `seq (sorted c)` of the class `std::pair`, compared by `first` | C71 for pairs | proved | `C75_map_first_wins` |
| C76 | Exports on different threads do not disturb each other | `IndentShared`: the static buffer as shared state, threads and schedules | invariant over the schedule: what a thread will have written; witness | partial | `C76_threads_partial`, `C76_false` |
| C77 | An export does not depend on the exports before it | `IndentShared`: actions of earlier exports, cut at any point | blocks of actions restore the buffer; an opening bracket repairs its own position; witnesses | partial | `C77_history_partial`, `C77_same_settings_partial`, `C77_false_exception`, `C77_false_newline` |
| C78 | ObjectIDs made by default are different | `ObjectIds`: the class counter, `std::rand()` and the clock as inputs | counters modulo 4095; witnesses | partial | `C78_distinct_partial`, `C78_made`, `C78_false`, `C78_false_threads`, `C78_start_undefined` |
| C79 | A JSON document that was cut short is not imported | `jsonExtract` on every beginning of a document text | invariant over all calls the deserialiser can make (`WatchF`): the rest of the text never closes the brackets that are open; scalars by cases; witness | partial | `C79_cut_partial`, `C79_strict`, `C79_false_in_weak_mode` |
| C80 | BSON from a stream and from a string | `BsonStream`: the BSON parser on a `std::istream` | two parsers side by side (`Sim`): the states correspond until one of them is lost; for documents `Presents` is carried over; witness | partial | `C80_documents`, `C80_any_bytes_partial`, `C80_false` |
| C81 | Several BSON documents in one stream | `bsonStreamImport` repeated on one stream | C80 for each document, induction over the list | proved | `C81_documents_in_sequence`, `C81_exports_in_sequence` |
| C82 | A BSON import takes only its document out of the stream | `bsonStreamImport` on two streams with the same bytes ahead and different ones behind | every operation of the parser depends on the bytes it takes only (`Eats`); two parsers side by side (`Sim`); cuts by C80 | proved | `C82_only_what_it_takes`, `C82_cut_documents` |
| C83 | Importing a JSON text comes to an end and stays in bounds | `jsonExtract` on any bytes (`jsonExtractJ`: with any value where the C++ variable was not written) | a measure, the text that is left, which every token and value shortens (`Halts`), and an invariant of the parser; induction on the measure through all functions of the deserialiser (`deser_ends`); the hang by unfolding one round of the loop and by fixpoint induction | partial | `C83_ends_partial`, `C83_same_report`, `C83_without_numbers`, `C83_round`, `C83_false` |
| C84 | The _id members of an insert command | `bsonExportIds`, `bsonExportIdsString`: size computation and serialiser directly on the printer, with the open containers, the identifiers made and the store; spec: `withIds` on the tree of C26 | a tree with identifiers that depends on the nesting and on the number of identifiers used (`tree`); sizes and bytes by mutual induction on the value; then `tree` at the top level is `withIds` | partial | `C84_ids_to_stream_partial`, `C84_no_store_partial`, `C84_ids_to_string_partial`, `C84_ids_to_string_false` |
| C85 | Projections | `bsonExportProjection`, `bsonExportProjMember`; spec: `ones` | the same induction as C84 with the projection flag; counterexamples by evaluation | partial | `C85_projection_partial`, `C85_scalar_false`, `C85_member_false` |
| C86 | bsonGetPrintSize is the size of the export | `bsonGetPrintSize` | the size half of the induction of C84 | partial | `C86_size_partial`, `C86_scalar_false` |
| C87 | Exporting a range | `jsonExportRange`, `yamlExportRange`, `bsonExportRange`; for strings the calls up to `openArray` on `StrOut` | the calls of the printer are those for a vector; the first write to a string has no buffer | partial | `C87_range_json_partial`, `C87_range_yaml_partial`, `C87_range_bson_partial`, `C87_range_bson_doc_partial`, `C87_range_to_string_false`, `C87_range_bson_to_string_false` |
| C88 | jsonStreanSize is the size of the compact JSON text | `jsonStreamSize`: `getPrintSize` with the sizes of the JSON printer; `std::log10` and the shortest `std::to_chars` are parameters | induction on the value: the size is the length of the tokens of the document; counterexamples by evaluation | partial | `C88_stream_size_partial`, `C88_values_false`, `C88_virtual_false`, `C88_pair_false` |
| C89 | OutputType::Stream removes all white space | `jsonExport` with `OutputType::Stream`; spec: `IsToken`, `Laid` | induction on the document: what the printer writes is the separator and the tokens | proved | `C89_stream_layout_is_dense` |
| C90 | std::format obeys its format specification | Model/Format.lean: parse on the rest of the format string, size_t arithmetic, conversion to int, format with the exporters and the swallowed exception; the check of std::format for the closing brace. | Spec/Format.lean has the documented grammar. Accepting: the digit loops compute the value of the digits; refusing: the parser stops after a specification, so what follows is not a closing brace. | partial | `C90_format_partial`, `C90_refused`, `C90_false` |
| C91 | Importing YAML comes to an end and stays in bounds | Model/Yaml.lean: every event of libyaml, the cleared event after a failure, number texts (hexadecimal and nan(...) included); Model/Deser.lean, Model/Parser.lean. | Proofs/Ends.lean: a measure (the events left) and a position (the open containers with their counts) carried through the deserialiser, by induction on what is left; in front of a key only a key, the end of the map or an error can come; behind an error every read throws. | partial | `C91_yaml_ends_partial`, `C91_document_partial`, `C91_false` |
| C92 | Builders return the value in the input | Model/Builder.lean on top of `extract`; the uninitialised local variable is an arbitrary value. | case analysis on the outcome; a relational fixpoint induction over the deserialiser (Proofs/Alike.lean): two runs from objects that differ in numbers go in step, the members read so far are equal, and in Exact mode all members have been read at the end. | partial | `C92_builder`, `C92_whole`, `C92_determined_partial`, `C92_round_trip_partial`, `C92_false`, `C92_false_array` |
| C93 | An export that broke off is the beginning of the document and is reported | Model/Sink.lean: a `std::ostream` with a limited number of bytes to come, `inserter` on it. | induction over the calls of the printer; with C79 and C33 for the later import. | partial | `C93_json`, `C93_bson`, `C93_failed_stream`, `C93_json_not_mistaken_partial`, `C93_bson_not_mistaken_partial`, `C93_false`, `C93_loud_false`, `C93_loud_bracket_false` |
| C94 | An import delivers a value of the type | Spec/Typed.lean `HasType`, the values of a type, on the model of the deserialiser; the five readers only have to hand out numbers of the type that was asked for. | fixpoint induction over the deserialiser (Proofs/Typed.lean); `getValue` of the five readers (Proofs/TypedOps.lean). | partial | `C94_json_partial`, `C94_json_stream_partial`, `C94_bson_partial`, `C94_bson_stream_partial`, `C94_yaml_partial`, `C94_any_text_partial`, `C94_foreign_class`, `C94_false` |
| C95 | A complete document that has room in the type does nothing undefined | Spec/Fits.lean `Fits`: a document that has room in a type, by recursion over the document; `HasType` of C94. | induction over the document on the tree level import (Proofs/Fits.lean), `imp_safe`; transferred to the readers by the refinement theorems of the formats. | proved | `C95_bson`, `C95_bson_stream`, `C95_yaml`, `C95_json`, `C95_json_stream` |
| C96 | Only JSON is imported as JSON | Spec/Lexis.lean: the grammar of JSON over any lexical rules, the rules of RFC 8259 (`C96_grammar`: the same texts as in the other properties) and of the library (`lax`). | fixpoint induction over the deserialiser with places of the grammar (Proofs/Track.lean); the lexer on arbitrary text (Proofs/Lax1.lean, Lax2.lean); the parser's states as places (Proofs/Lax3.lean). | partial | `C96_any_text_partial`, `C96_grammar`, `C96_strict_partial`, `C96_false`, `C96_nope`, `C96_inf`, `C96_tab`, `C96_zeros`, `C96_skipped_word` |
| C97 | What a document does not mention stays as it was | Spec/Touch.lean: the places of an object, the value at a place, and which places a document mentions. | induction over the document with the specification of import (Proofs/Touch.lean), and C12, C23, C27, C44 to get from texts to documents. | proved | `C97_json`, `C97_json_stream`, `C97_bson`, `C97_bson_stream`, `C97_yaml`, `C97_pointer` |
| C98 | A failed import leaves a valid object | Model/Left.lean: the deserialiser once more, with exceptions that carry the object as it is then; what `std::string` members are left with is arbitrary. | fixpoint induction: the model with exceptions forgotten is the model of the import (Proofs/Left.lean, LeftLink.lean); typing (LeftTyped.lean); names (LeftKept.lean), with the invariant that all names the parser returns are parts of the text (LeftInst.lean). | partial | `C98_object`, `C98_json_partial`, `C98_json_stream_partial`, `C98_bson_partial`, `C98_bson_stream_partial`, `C98_yaml_partial`, `C98_any_text_partial`, `C98_json_names`, `C98_json_stream_names`, `C98_bson_names`, `C98_bson_stream_names`, `C98_yaml_names`, `C98_dangling`, `C98_false` |
| C99 | A laxer mode accepts more and reads the same | the modes as an order (Spec/Modes.lean) | fixpoint induction over the deserialiser (Proofs/Modes.lean) | proved | `C99_json`, `C99_json_stream`, `C99_bson`, `C99_bson_stream`, `C99_yaml` |
| C100 | Documents read one after the other add up | `joined` documents (Spec/Layers.lean) | the specification of import is a fold over the members (Proofs/Layers.lean); C12, C23, C27, C44 to get from texts to documents | proved | `C100_json`, `C100_json_stream`, `C100_bson`, `C100_yaml` |
| C101 | Reading a document again changes nothing | `Settles`, `NoRepeats` (Spec/Layers.lean) | induction over the document: every step of the second reading finds what the first has left there (Proofs/Settles.lean) | partial | `C101_json_partial`, `C101_json_stream_partial`, `C101_bson_partial`, `C101_bson_stream_partial`, `C101_yaml_partial`, `C101_false` |
| C102 | The same document in JSON and in BSON gives the same object | `SameDoc` (Spec/SameDoc.lean) | the scalars of JSON are read like those of BSON (Proofs/JsonBson.lean), and import is monotone in the reading of scalars (Proofs/ImpMono.lean) | partial | `C102_string_partial`, `C102_stream_partial`, `C102_false` |
| C103 | What an AnyBlock captures from a JSON stream, BSON or YAML is the compact JSON text of the document | `compact`, `JDoc` (Spec/JsonGrammar.lean), `SameDoc` | `AnyBlock` over any parser that presents a tree captures `anyText` (Proofs/AnyMore.lean); for each format `anyText` is the compact text | partial | `C103_json_stream_partial`, `C103_bson_partial`, `C103_yaml_partial`, `C103_false_yaml`, `C103_false_bson` |
| C104 | Whatever was imported can be exported, and the export brings it back | `Solid` (Spec/Reexport.lean): types whose values can be brought back; `HasType`; `docOf` | every value of such a type has a document and is storable (`back_val`, by induction on the value); with C94 and the round trips C23, C27, C55 | partial | `C104_json_partial`, `C104_bson_partial`, `C104_yaml_partial`, `C104_false` |
| C105 | Different objects have different exports | `HasType`, `Solid`, `docOf` | both exports are read back into the same fresh object | partial | `C105_json_partial`, `C105_bson_partial`, `C105_yaml_partial`, `C105_false` |
| C106 | Importing BSON comes to an end and stays in bounds | `BJ`, `BStrJ` (Spec/BsonEnds.lean): the BSON parsers with an oracle in the place of indeterminate values; `Sound`, `Shaped` | the interface `Halts` of C83 and C91, with the mode as a parameter: invariant on the stacks of containers, sizes and bytes left, measure: bytes of the input left, twice, plus the token that is pending; `C106_false` by fixpoint induction on the loop | partial | `C106_stream_ends_partial`, `C106_string_ends_partial`, `C106_same`, `C106_string_same`, `C106_round`, `C106_false` |
| C107 | Importing JSON from a stream comes to an end and stays in bounds | `jsonStreamExtract`, `jsonStreamImport`: the lexer and the parser on a `std::istream`; `Sound`, `Shaped` | the interface `Halts` of C83: invariant that the position is inside the text, that the control part of the parser is reachable and that a scalar other than a number was found on a good stream; measure: the text left; the loops by unfolding a round and fixpoint induction for any parser that is stuck (`Stuck`) | partial | `C107_ends_partial`, `C107_false`, `C107_false_pointers` |
| C108 | Only BSON is imported as BSON | `bsonImport`, `bsonStreamImport`; the grammar `BRules.Doc` with the rules `bstandard` and `blax` (Spec/BsonGrammar.lean) | the interface `Track` of C96 with the open containers, their elements so far and their lengths as place; every byte consumed is accounted for in the length of every open container; `C108_grammar` ties the grammar to the trees of Spec/Bson.lean | partial | `C108_strings_partial`, `C108_streams_partial`, `C108_grammar`, `C108_false`, `C108_false_index`, `C108_false_weak` |
| C109 | Bytes behind a BSON document | `bsonExtract`, `bsonStreamExtract` (Model/BsonImporter.lean): `Importer::extract` over the BSON parser | the tree presented by the parser (C16, C80) with the state behind the value as final predicate; the check and the destructor evaluated from that state; streams by transfer from strings | partial | `C109_tail_partial`, `C109_failure`, `C109_scalar`, `C109_false` |
| C110 | Shared pointers in every format | `ssize`, `sserB`, `sbsonExport`, `sbsonExportString`, `sjsonExportString`, `syamlExport` (Model/SharedBson.lean): sizes and calls with the table of shared objects threaded through both | an annotated document relation `FDoc` that fixes, by the final table, which handle writes an object; every pass from any beginning of that table gives the same sizes and calls, by induction; imports by C35's induction over the presented document, for each parser | partial | `C110_bson_partial`, `C110_yaml_partial`, `C110_json_stream_partial`, `C110_json_string`, `C110_bson_null`, `C110_false` |
| C111 | Imported shared pointers point to something | `simportValue`, `sdeser`, `getShared` (Model/Shared.lean), specification `WellBuilt` (Spec/SharedSafe.lean) | fixpoint induction over the import, for any parser: every object handed out has one type, is still there, and points only to older ones that were handed out; so deleting one that was not hurts nobody | proved | `C111_json`, `C111_json_any`, `C111_json_stream`, `C111_bson`, `C111_bson_stream`, `C111_yaml` |
| C112 | What a document means for shared pointers | specification `impS` (Spec/SharedTree.lean), a recursive function of the tree | induction over the tree, for any parser that presents it (C28), then an instance per format | proved | `C112_json`, `C112_json_stream`, `C112_bson`, `C112_bson_stream`, `C112_yaml`, `C112_order`, `C112_reference`, `C112_object` |
| C113 | Importing shared pointers is defined behaviour | as C111; `SSound`, `Defined`, `Numbered` (Spec/SharedEnds.lean, Spec/SharedTree.lean) | Exact mode: the framework of C83, the measure of the input decreases; other modes: induction over the tree, with C112 | partial | `C113_json_exact_partial`, `C113_json_stream_exact_partial`, `C113_bson_exact_partial`, `C113_bson_stream_exact_partial`, `C113_yaml_exact_partial`, `C113_json_numbered_partial`, `C113_json_stream_numbered_partial`, `C113_bson_numbered_partial`, `C113_yaml_numbered_partial`, `C113_false` |
| C114 | No object is lost while importing shared pointers | as C111; `release`, specification `AllOwned` (Spec/SharedSafe.lean) | the invariant of C111: of the objects made since any point, those not deleted are those handed out, but for the one of the handle being read | proved | `C114_json`, `C114_json_any`, `C114_json_stream`, `C114_bson`, `C114_bson_stream`, `C114_yaml` |
| C115 | Classes with stream operators | `customJson`, `customBson`, `customYaml`, `customImport` (Model/Custom.lean), specification `CVal.tree`, `CVal.read` (Spec/Custom.lean) | induction over the elements, for any parser that presents the document (C28) and along the printers' states; then an instance per format | partial | `C115_json_partial`, `C115_read_json`, `C115_read_json_stream`, `C115_shape_json`, `C115_bson`, `C115_bson_size`, `C115_read_bson`, `C115_read_bson_stream`, `C115_yaml`, `C115_read_yaml`, `C115_false` |
| C116 | Enums of flags | `FlagEnum.print` (Model/EnumFlag.lean), specification `FlagNames`, `barred` (Spec/EnumFlag.lean) | induction over the bits; names without spaces can be told apart again | partial | `C116_print_partial`, `C116_names`, `C116_distinct_partial`, `C116_operators`, `C116_false` |
| C117 | Imports do not disturb each other | `BsonP.getRawInto`, `bsonCustomImports`, `RawProgram.run` (Model/RawBuffer.lean) | two runs with different buffers side by side, by fixpoint induction: they differ only when the input is at its end, and then the import fails; invariant of the threads between two objects | partial | `C117_history`, `C117_history_document`, `C117_locked_partial`, `C117_false`, `C117_failed_false` |
| C118 | Exporting any value is defined behaviour | `ser`, `YPrint`, `BPrint`, `psize` over `ValShape` (Spec/Shape.lean) | the calls a traversal makes are well nested (inductive `Calls`); each printer is safe on well nested calls; `psize` never looks up a missing name | partial | `C118_json_partial`, `C118_yaml`, `C118_bson_partial`, `C118_typed`, `C118_false` |
| C119 | A failed export is reported, and the program goes on | Model/Unwind.lean: `traceOf` (the calls of a traversal, also of one that fails), `play` and `unwind` (the destructors of the open blocks run while the exception passes; a throw inside one ends the program), the report of the exporter. | `trace_ser`: the traces are those of `ser`; `trace_leads`: they are well nested up to any cut; induction over the trace for each printer; for YAML an automaton of the event grammar (Spec/YamlEvents.lean). | partial | `C119_json`, `C119_json_goes_on`, `C119_json_string`, `C119_bson`, `C119_yaml`, `C119_yaml_partial`, `C119_yaml_arrays`, `C119_yaml_enums`, `C119_yaml_start`, `C119_false`, `C119_root_false`, `C119_yaml_output_false` |
| C120 | What a failed export leaves behind is not a document | Model/Unwind.lean as for C119 | `play_closers`: an exception on its way does what the closing calls do; so the writes are those of the traversal that ends before the failure | partial | `C120_string_partial`, `C120_enums_false`, `C120_optional_false`, `C120_false` |
| C121 | A class with its own serialiser is written by the function for the format | Model/CustomFormat.lean: `formatType` of the six classes, the casts, the functions of `DefaultCustomSerializer`. | the traversals are equal to those of the values the objects stand for; YAML by C119 | partial | `C121_json`, `C121_bson`, `C121_read`, `C121_missing`, `C121_false` |
| C122 | YAML export to a string gives the text of the stream | Model/YamlString.lean: both passes of `Serializer::print`, `reset`, the destructors, the callback over `StringOutput`; libyaml is a function from events to pieces. | induction over the pieces: the first pass counts what the second writes; C58 for the text | partial | `C122_yaml_string_partial`, `C122_first_line`, `C122_false`, `C122_stream_end` |
| C123 | Objects of a class that names its type field come back by value | Model of the deserialiser and of the three exporters; the clause `field = none` in `Storable` of C23 that this property is about. | the first member is the type field: skipped in Weak mode, then the induction of C23 for the members; refused otherwise | partial | `C123_json_weak_partial`, `C123_bson_weak_partial`, `C123_yaml_weak_partial`, `C123_json_false`, `C123_bson_false`, `C123_yaml_false` |
| C124 | A variant comes back with the alternative it held | Model of `readVariant` (`pickAlt`) and of the three exporters. | the induction of C23; the choice of the alternative by induction on the list; the false cases by the first member of the document | partial | `C124_json_partial`, `C124_bson_partial`, `C124_yaml_partial`, `C124_unknown_refused`, `C124_yaml_unknown_refused`, `C124_false`, `C124_same_name_false` |
| C125 | Only the text of an ObjectID is taken for one | `readNumberMaxLen`, `ObjectID.readText` (Model/Mongo.lean); specification `hexNumber` | induction on the digits; for any text, induction on the turns of the loop with the number of characters besides white space | partial | `C125_digits_partial`, `C125_false`, `C125_json_false` |
| C126 | Time stamps compare in the order of time | `BsonTimeStamp.lt`, `BsonTimeStamp.eq`; specification `stampNumber` | linear arithmetic; witness for all pairs in the wrong order | partial | `C126_order_partial`, `C126_total`, `C126_false` |
| C127 | Writing an ObjectID to a stream does not change the stream's format | Model/MongoStream.lean: the format state of a stream, padding, `StreamFormatterNoChange` | calculation for all states; length of hexadecimal texts by induction | partial | `C127_object_id_partial`, `C127_time_stamp_partial`, `C127_fill_false`, `C127_next_false`, `C127_showbase_false` |
| C128 | Only integers are taken for integers from a stream | `IStr.readInt`, `IStr.checkZero`, `IStr.validateResult`, `JsonS` (Model/StreamInput.lean, Model/JsonStream.lean); specifications `BeginsWithInteger`, `TakenForInteger` | the text is split into white space, signs, digits and rest; how far `num_get` reads is computed for every split, in both directions | partial | `C128_exactly_partial`, `C128_json_taken`, `C128_false` |
| C129 | Only numbers are taken for floating point numbers from a stream | `IStr.numGetFlt`, `IStr.readFlt`, `LexerS.scanFlt` (Model/StreamInput.lean, Model/JsonStream.lean); specifications `BeginsWithNumber`, `TakenForNumber` | as C128; whether `num_get` moves is decided by the first character | partial | `C129_exactly_partial`, `C129_false` |
| C130 | A date written to a stream is read back | Model/MongoDate.lean: `UTCDateTime.put`, `UTCDateTime.get`; the zone and the calendar are any function from seconds to the day of the week and the rest of the text | case distinction on the day; induction on the hexadecimal digits | partial | `C130_hex_partial`, `C130_reads_partial`, `C130_false`, `C130_seconds_false` |
| C131 | A key cannot add elements to a BSON document | nothing new: the BSON printer and parser | C27 with the document of such a map; the two documents have the same bytes by associativity of concatenation | partial | `C131_partial`, `C131_false`, `C131_injected` |
| C132 | A key cannot add members to a JSON document | nothing new: the JSON printer and parser | C23 with the document of such a map; the text of the one entry is a text of the two entries by the grammar, which the reader follows (C12) | partial | `C132_partial`, `C132_false` |
| C133 | Of a repeated member the last one counts | nothing new; Spec/Repeated.lean: `LastOnly` relates the two documents | what is stored for a member is overwritten; the members in between are stored elsewhere; induction on the relation | partial | `C133_json_partial`, `C133_bson_partial`, `C133_yaml_partial`, `C133_false` |
| C134 | Arrays are read and written element by element | nothing new: the JSON parser, the importer of containers, the JSON printer | induction on the elements, from the meaning of the document (C12) and the tokens of the export (C22) | proved | `C134_import`, `C134_import_bson`, `C134_import_yaml`, `C134_import_stream`, `C134_export`, `C134_export_map`, `C134_export_tuple`, `C134_export_yaml`, `C134_export_map_yaml`, `C134_export_tuple_yaml` |
| C135 | Objects are read member by member | nothing new | induction on the members: a member is stored at its own place, and no other member changes that place | proved | `C135_import`, `C135_import_bson`, `C135_import_yaml`, `C135_import_stream`, `C135_succeeds` |
| C136 | Objects are written member by member | nothing new: the serializer and the JSON printer | induction on the members and on the base classes, from the tokens of the export (C22) | proved | `C136_class`, `C136_pointer`, `C136_variant`, `C136_class_yaml`, `C136_pointer_yaml`, `C136_variant_yaml` |
| C137 | Maps are read entry by entry | nothing new | induction on the members: storing under one key does not change what is found under another | proved | `C137_import`, `C137_succeeds`, `C137_import_yaml`, `C137_import_bson`, `C137_import_stream` |
| C138 | Arrays of fixed size and tuples are read element by element | nothing new | induction on the elements: storing at one place does not change another | proved | `C138_import`, `C138_succeeds`, `C138_import_yaml`, `C138_import_bson`, `C138_import_stream` |
| C139 | Optionals and pointers are what they hold | nothing new | the steps of the reader are compared one by one; pointers from the meaning of the document (C12) | proved | `C139_optional`, `C139_optional_stream`, `C139_optional_yaml`, `C139_pointer`, `C139_null`, `C139_pointer_stream`, `C139_null_stream`, `C139_pointer_yaml`, `C139_null_yaml`, `C139_optional_null`, `C139_export`, `C139_export_yaml` |
| C140 | How a JSON document is spelled does not matter | two spellings of a document (Spec.SameWords) | both imports are the meaning of the tree (C12); by induction on the type and the tree the meaning looks at decoded strings and values only | proved | `C140_spelling`, `C140_spelling_stream`, `C140_white_space` |

What is missing from the partial ones is said in `MANIFEST.json` and in the comments of the theorems.

## 5. Where the code does not do what the property says

Each line is a theorem about the model (a concrete input or value and the wrong outcome), found by trying
to prove the property.

| property | theorem | what happens |
|---|---|---|
| C04 | `C04_false` | `\uD840\uDC00` (U+20000) is decoded as U+10000: 0x10000 is OR-ed in instead of added |
| C09 | `C09_false` | a literal outside the destination's range is accepted from a string; the value is indeterminate (`errc::result_out_of_range` is not looked at) |
| C10 | `C10_false` | `-01` and `00` are accepted |
| C15 | `C15_third_token_lost` | a third pushed back token disappears |
| C16 | `C16_false_for_backslash` | skipping a string that ends in an escaped backslash runs past its closing quote |
| C18 | `C18_false_with_overrides` | in Exact mode a renamed member that is present counts as missing |
| C21 | `C21_false` | a key with a quote is written without escaping: malformed JSON, or a different key |
| C23 | `C23_false` | a null pointer behind a pointer comes back as a null outer pointer |
| C25 | `C25_false` | nesting deeper than 1001 levels reads beyond the indentation buffer |
| C26, C28 | `C26_false_strings`, `C28_false` | BSON strings are JSON-escaped when stored but sized unescaped |
| C26 | `C26_false_classes` | the size of a variant of a class without type field name is wrong |
| C27 | `C27_false` | a top level optional is not a BSON document |
| C31 | `C31_false` | a stored number that does not fit the destination wraps |
| C32, C33 | `C32_short_read_indeterminate`, `C33_false` | a BSON document cut inside its length makes the reader use an indeterminate length |
| C35 | `C35_false`, `C35_exact_rejects` | an object that points to itself is exported, but its text is rejected by the import; in Exact mode every second handle is rejected |
| C39 | `C39_false_for_containers` | a repeated key of a `std::map` of vectors appends to the first value |
| C40 | `C40_false`, `C40_array_overrun` | a longer JSON array writes behind a `std::array` |
| C41 | `C41_false` | with a user filter that keeps it, an empty optional makes the export throw |
| C46 | `C46_false_for_escaped_keys`, `C46_false_for_utf8`, `C46_false_for_backslash` | an `AnyBlock` captures keys decoded (a quote in a key gives malformed text), and refuses strings with non-ASCII bytes or ending in an escaped backslash |
| C49 | `C49_false` | `asDateTime` computes modulo 2^32 |
| C50 | `C50_false` | BSON time stamps are stored big endian |
| C52 | `C52_false` | `ObjectID::to_string` returns the text of an earlier value |
| C53 | `C53_false` | regular expression and JavaScript elements cannot be skipped |
| C54 | `C54_false` | an ObjectID is read from an element of any type |
| C55, C59 | `C55_false`, `C59_false` | the strings `null` and `~` are read from YAML as null pointers, quoted or not |
| C57 | `C57_false` | YAML: 70000 into an `unsigned short` gives 4464, 2^63 into a `long` gives 2^63-1, the empty scalar gives 0 |
| C60 | `C60_false` | from a stream, 40000 into a `short` gives -25536, -5 into an `unsigned` gives 4294967291, both reported as success |
| C60 | `C60_false_unseekable` | no integer can be read from a stream that cannot tell its position (pipe, socket): `tellg()` is the test for success |
| C60 | `C60_false_hang` | from a stream, a string cut off behind `\"\` sends the reader into an endless loop that allocates |
| C62 | `C62_false` | 1e400 into a `double` is accepted from a string, the value is indeterminate |
| C63 | `C63_false`, `C63_infinity_false` | a negative zero is printed into a string as `-0.`, infinities as `inf` |
| C64 | `C64_false` | 2^-30 is printed into a string as 0.000000 |
| C65 | `C65_false` | 16777217.0 is printed on a stream as 1.67772e+07 |
| C66 | `C66_false` | into a `std::string`, 2^60 (default size estimate) and a negative zero (exact sizes) are written beyond the end of the string |
| C67 | `C67_false` | a `long double` is narrowed to `double` in BSON: 1 + 2^-63 comes back as 1, 2^1024 as infinity |
| C69 | `C69_false` | 1e400 in YAML is read into a `double` as infinity, without an error |
| C70 | `C70_false` | 1e400 from a stream is read into a `double` as the largest `double`, without an error |
| C76 | `C76_false` | two threads printing indented JSON at the same time: a bracket of one appears in the text of the other (a `static std::string` is changed and changed back) |
| C77 | `C77_false_exception` | a stream that throws while a bracket is written leaves the bracket in that static string: a later export with other settings writes `[[` for `[` |
| C77 | `C77_false_newline` | an export with block indent -1 overwrites the newline in that static string: all later indented exports are written without line breaks |
| C78 | `C78_false`, `C78_false_threads`, `C78_start_undefined` | the counter of an ObjectID is taken modulo 0xFFF (4095), incremented without synchronisation, and starts with `32769 + std::rand()`, which can overflow |
| C79 | `C79_false_in_weak_mode` | Weak mode: `{"x":"\\","}`, the beginning of `{"x":"\\","}":1}`, is imported with success into a struct without member `x` (a consequence of C16) |
| C80 | `C80_false` | Weak mode: skipping a string or binary data of negative size moves a string reader back (the bytes are read again), a stream reader not at all |
| C83 | `C83_false` | a container of pointers read from text with an element behind a `null` but no comma (`[null null`) never ends: the parser is in its error state, the pointer is taken for null because the last lexeme was `null`, and a null pointer is appended in every round |
| C84 | `C84_ids_to_string_false` | with a store, output to a `std::string` makes and stores identifiers in both passes: the store gets twice as many as there are documents, and the first half belongs to no document |
| C85 | `C85_scalar_false` | the projection of a single value lacks the last byte of its document |
| C85 | `C85_member_false` | a projection that is a member of a class: the length of the enclosing document is that without the projection |
| C86 | `C86_scalar_false` | `bsonGetPrintSize` of a single value does not count the document around it |
| C87 | `C87_range_to_string_false`, `C87_range_bson_to_string_false` | exporting a range to a `std::string` writes through a null pointer: `openArray` comes before any size is reserved |
| C88 | `C88_values_false`, `C88_virtual_false`, `C88_pair_false` | `jsonStreanSize` does not count the quotes of the keys of maps and pairs, nor escapes; it counts a class name that is not written for an object with virtual functions; it loses the sign of a negative zero, counts 19 digits for 999999999999999999 and calls `std::abs` on the least `int` (undefined) |
| C90 | `C90_false` | An indentation of 4294967297 in a format specification is one of 1; a format string that ends inside the specification is read behind its end; an exception while exporting (an empty optional) makes std::format return without document and without error. |
| C91 | `C91_false` | A YAML sequence with more elements than a `std::array` or `std::tuple` has is written behind its end (as C40 for JSON). |
| C92 | `C92_false`, `C92_false_array` | The builders declare `T value;` without an initialiser: in Weak and Strict mode a number missing from the input is indeterminate in the result, although a failed import gives the zeros of `T{}`. A JSON array shorter than a `std::array` does the same in every mode. |
| C93 | `C93_false` | A document that is one number is still a document when it is cut: `12` on a stream that takes one byte is read back as `1`. With `badbit` in `exceptions()` of the stream, `setFail()` in the handler of `inserter` throws again, so the exception leaves `<<` although `catchExceptions` is on. When the stream breaks down while a block is open, the destructor that writes the closing bracket throws too, and the program is ended (`C93_loud_false`, `C93_loud_bracket_false`). |
| C94 | `C94_foreign_class`, `C94_false` | `PolyMorphicRegistry` has one table of names for all class hierarchies, and `getNamedTypeConvertedTo` casts whatever is registered under the name in the document with `reinterpret_cast`: `{"__type":"Bike"}` read into a `std::unique_ptr<Car>` makes it point to a `Bike`. |
| C96 | `C96_false`, `C96_nope`, `C96_inf`, `C96_tab`, `C96_zeros`, `C96_skipped_word` | Any four characters that begin with an n are a null pointer (`ignoreRawValue` only counts); `inf`, `nan` and `.5` are read into a `double` (`from_chars`); `00` begins an integer (`checkZero` refuses only 01 to 09); vertical tab and form feed are white space (`std::isspace`); in Weak mode the value of an unknown member may be any four characters that begin with a t or n, or five that begin with an f, and its number may have a plus sign. |
| C98 | `C98_dangling`, `C98_false` | `DeSerializationForBlock<Pointer>::scanObject` calls `Traits<T*>::release(object)`, which for a plain pointer is `delete` (ThorsSerializerUtil.h:179), before it looks at the input; when anything throws before the new object is made, the member still holds the address of the deleted object, and the destructor of its owner deletes it again. With `std::unique_ptr` the member is null then. |
| C101 | `C101_false` | Sequences, multisets and multimaps are not cleared before they are read into: reading `[1]` twice into a `std::vector<int>` gives `[1,1]`, so that a configuration that is loaded again grows. |
| C102 | `C102_false` | A `float` is read from BSON by rounding the stored double: `1.00000005960464478` is imported as 1.00000012 from JSON and as 1 from BSON. |
| C103 | `C103_false_yaml`, `C103_false_bson` | An `AnyBlock` captures YAML strings without quotes (the list of the string `{` gives `[{]`), BSON strings without escapes (`a"b` gives `"a"b"`), doubles with six digits after the point, and of the BSON document `{"a":1}` only `1`. |
| C104 | `C104_false` | A short list is imported into a `std::array<std::optional<bool>, 2>`; exporting the array throws, since an empty optional that is not a member cannot be written. |
| C105 | `C105_false` | Keys are written without escapes: the maps with the keys `a` and `b`, and with the one key `a":true,"b`, have the same JSON text. A pointer to the string `null` and a null pointer have the same YAML. |
| C106 | `C106_round`, `C106_false` | In the mode `Weak` a member that the class does not have is skipped without checking its size. From a string, a string value of the size -7 takes the parser back to the start of the same member, for ever; a size behind the end makes the next `read` copy from outside of the string. From a stream, a document that ends within its size has an indeterminate size. |
| C107 | `C107_false`, `C107_false_pointers` | From a stream, the text `"\"\` read into a string, and `[null null` read into a vector of unique pointers, are read for ever: the string and the vector grow without bound. |
| C108 | `C108_false`, `C108_false_index`, `C108_false_weak` | The byte behind a string is not compared with NUL, the keys of arrays are not compared with the index, and in Weak mode a string of the length -7 makes the reader go back seven bytes: all three documents are imported. |
| C109 | `C109_false` | With `validateNoTrailingData`, importing any string, number or boolean at the top of a BSON document terminates the program: the check takes the terminator of the document for trailing data, and the destructor of the `DeSerializer` throws during the unwinding. |
| C110 | `C110_false` | BSON: a `std::shared_ptr` to a sequence at the top of a document is written as the document `{sharedPtrName, data}`, but the importer of that type expects an array: it rejects its own export. |
| C113 | `C113_false` | An object without `sharedPtrName` where a shared pointer is expected, such as `{}`: outside Exact mode the number, which was never given a value, is used. |
| C115 | `C115_false` | `JsonPrinter::addRawValue` escapes the text of a class with stream operators: `"a"` becomes `\"a\"`, which is no JSON document. The state of the stream after `operator>>` is not looked at: an import in which it fails succeeds. A number at the very end of a stream leaves the stream in a failed state. |
| C116 | `C116_false` | Printing a value of an enum of flags with a bit that has no name dereferences `values.find(flag)` although it is the end of the table. |
| C117 | `C117_false`, `C117_failed_false` | `BsonParser::getRawValue` returns a view of a static string. Two threads that import BSON at the same time can read each other's texts; a cut document leaves bytes of an earlier one in the object (the import then throws). |
| C118 | `C118_false` | `getPrintSize` of an enumeration dereferences the result of `find` without a check: BSON export of a container with an enumerator that has no name reads through the end iterator. JSON and YAML throw. |
| C119 | `C119_false`, `C119_root_false`, `C119_yaml_output_false` | `~SerializerForBlock`, `~Serializer` and `~YamlPrinter` are `noexcept` and call functions that throw. A YAML export that fails behind a key (a `std::string` member that is not UTF-8) or before the first event (an empty `std::optional`) ends the program, also with `catchExceptions`; so does any YAML export to a stream that takes nothing. |
| C120 | `C120_false`, `C120_enums_false`, `C120_optional_false` | A JSON export to a stream that fails inside an array leaves a complete document: the destructor of the block writes the closing bracket while the exception passes. `vector{On, 7}` leaves `["On"]`. |
| C121 | `C121_false` | `YamlPrinter::formatType()` returns `FormatType::Json` (YamlPrinter.h:47): no class with its own serialiser can be exported to YAML, even if it implements `writeYaml`; the `std::bad_cast` ends the program unless the object is in an array. |
| C122 | `C122_false` | The flag `YamlPrinter::firstLine` is cleared in the counting pass and `reset()` does not set it again: with a block size, the first line of a YAML export to `std::string` is not indented, while on a stream it is. Also, `reset()` and `~YamlPrinter` end the stream outside the counted part: if libyaml wrote anything then, it would go outside the string (`C122_stream_end`). |
| C123 | `C123_json_false`, `C123_bson_false`, `C123_yaml_false` | A class with `ThorsAnvil_TypeFieldName` writes the type field also when it is exported by value (Serialize.tpp:935-939), but the import by value does not know it: in the modes Strict and Exact no such export can be imported again. |
| C36 | `C36_false`, `C36_second_base_false` | The export of an object behind a pointer to a base class uses the type field name of the class of the object (`getPolymorphicMarker<T>` in `printPolyMorphicMembers`), the import that of the class of the pointer: if they differ, no export can be imported. `getNamedTypeConvertedTo` converts the new object with `reinterpret_cast`, so an object behind a pointer to its second base class is exported, and importing that is undefined. |
| C124 | `C124_false`, `C124_same_name_false` | A variant is exported with the type field of the class it holds, but imported with the type field of its first class (Serialize.tpp:480): an alternative with another field never comes back. Alternatives are told apart by the name alone: of two with the same name (the macro does not include the namespace) the second is never imported. |
| C125 | `C125_false`, `C125_json_false` | Nothing checks that a text is an ObjectID: every character counts as a digit (MongoUtility.h:344), a short text leaves `char c` uninitialised (MongoUtility.h:338). |
| C126 | `C126_false` | `operator<` compares `std::tie(increment, timestamp)` (MongoUtility.h:272), so an earlier time stamp with the larger increment compares greater. |
| C127 | `C127_fill_false`, `C127_next_false`, `C127_showbase_false` | `StreamFormatterNoChange` saves flags and precision, not the fill character that `std::setfill('0')` changes for good; `showbase` and `uppercase` are not cleared. |
| C128 | `C128_false` | `readNumber` skips one minus sign and leaves the rest to `num_get`, which takes another sign; success is judged by the position having moved, so signs without digits count as 0 (ParserInterface.h:56-78). Strings refuse all of these. |
| C129 | `C129_false` | The error state of `num_get` is dropped and success is judged by the position having moved (ParserInterface.h:56-66), so a text that begins like a number and is none counts as 0. |
| C130 | `C130_false`, `C130_seconds_false` | `operator<<` writes `%c %Z` of the local time, `operator>>` reads `std::hex >> datetime` (MongoUtility.h:372-379, 395-399). |
| C131 | `C131_false`, `C131_injected` | `BsonPrinter::writeKey` writes `currentKey.size() + 1` bytes of the key (BsonPrinter.cpp:138), the parser reads up to the first NUL; nothing looks for a NUL in the key. |
| C132 | `C132_false` | `JsonPrinter::addKey` writes the key as it is (see C21). |
| C133 | `C133_false` | Elements are appended to the old content of a container: `{"why":[1],"why":[2]}` gives both elements. |

## 6. Trusted base

* Lean 4.33.0's kernel. No axioms are added; the theorems of `MANIFEST.json` depend on no others than
  `propext`, `Classical.choice` and `Quot.sound` (which is what `vcheck` and `#print axioms` report). No
  `sorry`, `native_decide`, `bv_decide`, `implemented_by`, `unsafe`. Mathlib is not used.
* That the definitions in `Verif/Model` are what the cited lines do. They were written by reading the code;
  the code was not run.
* That the definitions in `Verif/Spec` and the statements in `Verif/Props` say what the English says.
* Contracts of the C++ standard library, written from the standard: `std::to_chars` / `from_chars` on
  integers and (correctly rounded, ties to even) on floating point values, `ostream <<` of floating point values, `std::string`, `std::map` and its relatives, `std::tuple` comparison, `std::hex`/`setw`/`setfill`
  formatting, formatted extraction of characters and hexadecimal numbers, `std::to_string`; `std::istream`: its states, unformatted
  input, `std::getline`, `num_get` (libstdc++ where the standard leaves a choice), on a buffer that does not fail.
* libyaml, by contract: it reports the events of the document it is given, or some of them and then an error; the
  emitter writes a text for which it would report the events it was given (so the YAML theorems speak of events,
  not of text); `memset` clears an event before it is filled. For C119: it takes every proper sequence
  of events and refuses an improper one at the latest at the end of the document (`Emitter`, Spec/YamlEvents.lean). `strtol`, `strtoul` and relatives, from C17.
* Floating point: `float`, `double` and x87 `long double` as exact binary numbers, rounding to nearest, ties to even
  (`Float.lean`); one NaN for each sign; conversions that are too large give infinity (IEEE 754; undefined in ISO C++).
* The target: 8 bit bytes, two's complement, little endian, `char` signed, `int` 32 and `long` 64 bits.

### What is modelled

| source | model | not modelled |
|---|---|---|
| `StringInput.h` | `StringInput.lean`, every member | |
| `StringOutput.h` | `StringOutput.lean`: both passes, exact and growing mode | |
| `UnicodeIterator.h` | `Unicode.lean`: both decoders | |
| `ThorsSerializerUtil.h` | `Escape.lean` (`escapeString`); the traits of the built in types in `Types.lean` | |
| `JsonManualLexer.{h,cpp}` | `JsonLexer.lean`: spaces, tokens, literals, strings, numbers, raw text, skipping; over `std::istream`: `JsonStream.lean` | |
| `JsonParser.{h,cpp}` | `JsonParser.lean`: the transition table, `getNextToken`, the stack, value access | |
| `ParserInterface.{h,cpp}` | `Parser.lean`: push back, skipping, the root; `StreamInput.lean`: the functions over `std::istream` | |
| `JsonPrinter.{h,cpp}` | `JsonSize.lean`: the size functions (`std::log10` and the shortest `std::to_chars` are parameters); `JsonPrinter.lean`: all three layouts, indentation, all calls; `IndentShared.lean`: the same with the static buffer as shared state (an export whose serialisation itself throws is not part of the histories there); `Float.lean`: the texts of floating point values | |
| `Serialize.tpp`, `Serialize.h`, `SerUtil.h`, `Traits.h` | `Types.lean`, `Ser.lean`, `Deser.lean`, `Left.lean` (what an exception leaves): integers, floating point types, bool, string, vector (also of bool)/list/deque, set/multiset/unordered_set/unordered_multiset, array, tuple, pair, map/multimap/unordered_map with string keys, the same and unordered_multimap with other keys, optional, unique_ptr and raw pointers, polymorphic pointers, classes with parents, overrides and filters, type field names, enums, variants; `Custom.lean`: classes with stream operators; `EnumFlag.lean`; `RawBuffer.lean`: the static buffer of the BSON parser | `std::unordered_multimap` with string keys (as multimap, without an order); unions of the deprecated kind; sparse/`ThorsAnvil_RegisterPolyMorphicTypeGlobal` registration order |
| shared pointers: `PrinterInterface.h` `addShared`, `ParserInterface.h` `getShared`, their blocks in `Serialize.tpp` | `Shared.lean`: graphs of classes, sequences and handles; `SharedBson.lean`: the same in BSON, with sizes, in YAML and in strings | polymorphic pointees, other containers of handles |
| `Importer.h`, `Exporter.h` | `Importer.lean`: the outcome logic, trailing data check; `BsonImporter.lean`: the same for BSON; `Sink.lean`: streams that break down; `Unwind.lean`: exports to them, and exports that fail, with the destructors that run meanwhile | |
| `jsonBuilder`, `bsonBuilder`, `yamlBuilder` in `JsonThor.h`, `BsonThor.h`, `YamlThor.h` | `Builder.lean` | |
| `BsonPrinter.{h,cpp}`, `BsonThor.h`, size functions of `Traits.h` | `BsonPrinter.lean`, `BsonIds.lean` (with an `_id` store, and for projections) | how ObjectIDs are made (clock, random number, counter: any sequence of identifiers) |
| `Exporter.h` (ranges), the range exporters of `JsonThor.h`, `YamlThor.h`, `BsonThor.h` | `Range.lean`, `BsonIds.lean` | that a reference to a by-value parameter is kept |
| `BsonParser.{h,cpp}` | `BsonParser.lean` on a string, `BsonStream.lean` on a `std::istream` | |
| `MongoUtility.{h,cpp}`, `MongoUtilityObjectId.h`, `CustomSerialization.{h,tpp}` | `Mongo.lean`, `ObjectIds.lean`, `MongoStream.lean` (the format state of the stream), `MongoDate.lean` (dates on streams); `CustomFormat.lean`: the choice of the function for the format | the calendar and the time zone behind the text of `UTCDateTime` |
| `YamlParser.{h,cpp}`, `YamlPrinter.{h,cpp}` | `Yaml.lean`: events to tokens, scalars, the events of the printer, both stream callbacks; `YamlString.lean`: export to `std::string` | libyaml; container style hints; negative block sizes |
| `Traits.h` `AnyBlock`, its (de)serialiser in `Serialize.tpp` | `AnyBlock.lean` on JSON (strings and streams), BSON and YAML | BSON `ObjectID`, binary and dates inside an `AnyBlock` |
| `Format.h` | `Format.lean`: the formatter for `TA::Ser` | `std::format` itself; that braces with a narrowing conversion may be refused by the compiler |
| `Logging.h`, configuration headers | | not modelled |

A short read into an uninitialised variable, `back()` of an empty vector, an index outside a fixed array, an
unregistered enum value in the BSON size pass and a `bool` byte other than 0 or 1 are `ub` in the model.
