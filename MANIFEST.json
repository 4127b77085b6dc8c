{
 "claims": [
  {
   "property": "C01",
   "status": "proved",
   "theorems": [
    "Verif.C01_common_prefix_len_greatest",
    "Verif.C01_common_prefix_len_chars"
   ],
   "note": "common_prefix_len is the longest common prefix that ends on a character boundary"
  },
  {
   "property": "C02",
   "status": "proved",
   "theorems": [
    "Verif.C02_common_prefix_symmetric",
    "Verif.C02_has_common_prefix",
    "Verif.C02_truncation"
   ],
   "note": "common prefix is symmetric and the truncation helpers are safe at it"
  },
  {
   "property": "C03",
   "status": "proved",
   "theorems": [
    "Verif.C03_sortedvec_sorted_and_complete",
    "Verif.C03_push_never_panics",
    "Verif.C03_remove_in_range",
    "Verif.C03_replace"
   ],
   "note": "SortedVec stays sorted and loses nothing"
  },
  {
   "property": "C04",
   "status": "proved",
   "theorems": [
    "Verif.C04_find_pos",
    "Verif.C04_find",
    "Verif.C04_binary_search_by"
   ],
   "note": "SortedVec search is complete and correct"
  },
  {
   "property": "C05",
   "status": "proved",
   "theorems": [
    "Verif.C05_set_parser",
    "Verif.C05_set_match_unique"
   ],
   "note": "SET parser accepts exactly the maximal leading run within its length limits"
  },
  {
   "property": "C06",
   "status": "proved",
   "theorems": [
    "Verif.C06_int_parser"
   ],
   "note": "INT parser is the SET parser over the ten ASCII digits"
  },
  {
   "property": "C07",
   "status": "proved",
   "theorems": [
    "Verif.C07_greedy_with_end",
    "Verif.C07_greedy_without_end"
   ],
   "note": "GREEDY stops at the first occurrence of its end string"
  },
  {
   "property": "C08",
   "status": "proved",
   "theorems": [
    "Verif.C08_parsers_never_panic"
   ],
   "note": "Parsers never panic and never cut a character when SET arguments are ASCII"
  },
  {
   "property": "C09",
   "status": "partial",
   "theorems": [
    "Verif.C09_refuted",
    "Verif.C09_set_never_panics_partial",
    "Verif.C09_panic_iff"
   ],
   "note": "False as stated (C09_refuted: SET of `é` panics on `Ã`). Proved instead: exactly when the parser panics (C09_panic_iff), and that it does not if the set or the text is ASCII."
  },
  {
   "property": "C10",
   "status": "partial",
   "theorems": [
    "Verif.C10_refuted",
    "Verif.C10_set_is_regex_partial",
    "Verif.C10_agree_iff"
   ],
   "note": "False as stated (C10_refuted: a run longer than max_len is refused, not cut). Proved: agreement with the regular expression if min_len >= 1 and the run is not longer than max_len; C10_agree_iff says exactly when the two agree."
  },
  {
   "property": "C11",
   "status": "proved",
   "theorems": [
    "Verif.C11_trie_sound"
   ],
   "note": "Trie matcher is sound"
  },
  {
   "property": "C12",
   "status": "proved",
   "theorems": [
    "Verif.C12_values_are_captures"
   ],
   "note": "Extracted values are exactly the named captures, first occurrence winning"
  },
  {
   "property": "C13",
   "status": "proved",
   "theorems": [
    "Verif.C13_ascii_never_panics"
   ],
   "note": "Trie matcher never panics on ASCII patterns and messages"
  },
  {
   "property": "C14",
   "status": "partial",
   "theorems": [
    "Verif.C14_refuted",
    "Verif.C14_no_panic_partial"
   ],
   "note": "False as stated (C14_refuted: literal `abc`, text `é`). Proved: no panic for ASCII literals and texts; C66 says exactly which texts panic for every UTF-8 history."
  },
  {
   "property": "C15",
   "status": "proved",
   "theorems": [
    "Verif.C15_literal_after_add",
    "Verif.C15_literal_after_add_ascii"
   ],
   "note": "A literal pattern is matched right after it was added"
  },
  {
   "property": "C16",
   "status": "proved",
   "theorems": [
    "Verif.C16_literal_map",
    "Verif.C16_literal_map_ascii"
   ],
   "note": "A trie of literal patterns is a map from texts to the last pattern added for the text"
  },
  {
   "property": "C17",
   "status": "partial",
   "theorems": [
    "Verif.C17_refuted",
    "Verif.C17_new_parser_partial",
    "Verif.C17_other_first_byte_partial",
    "Verif.C17_literal_kept_partial"
   ],
   "note": "False as stated (C17_refuted: adding `app%{INT:a}y` removes `app%{INT:a}x`). Proved: three kinds of additions that keep earlier matches; C79 says for every addition exactly how answers can change."
  },
  {
   "property": "C18",
   "status": "proved",
   "theorems": [
    "Verif.C18_single_pattern",
    "Verif.C18_single_pattern_ascii"
   ],
   "note": "A trie holding one pattern matches exactly the texts of that pattern"
  },
  {
   "property": "C19",
   "status": "proved",
   "theorems": [
    "Verif.C19_incomparable",
    "Verif.C19_incomparable_ascii"
   ],
   "note": "Patterns with incomparable leading literals do not interfere in the trie"
  },
  {
   "property": "C20",
   "status": "partial",
   "theorems": [
    "Verif.C20_refuted",
    "Verif.C20_incomparable_partial",
    "Verif.C20_literals_partial",
    "Verif.C20_same_order_partial",
    "Verif.C20_same_order_ascii_partial",
    "Verif.C20_order_counts",
    "Verif.C20_order_counts_utf8",
    "Verif.C20_shorter_first",
    "Verif.C20_shorter_first_utf8"
   ],
   "note": "False as stated (C20_refuted). Proved for literal patterns, for incomparable leading literals, and for every rearrangement in which patterns whose order can matter (OrderMatters) keep their order; C20_order_counts and C20_shorter_first show that between such patterns the order does matter. C65 and C76 say on what the answers depend for every history."
  },
  {
   "property": "C21",
   "status": "proved",
   "theorems": [
    "Verif.C21_literal_precedence",
    "Verif.C21_literal_precedence_ascii"
   ],
   "note": "Literal matches have precedence over parser matches"
  },
  {
   "property": "C22",
   "status": "proved",
   "theorems": [
    "Verif.C22_insertion_order",
    "Verif.C22_insertion_order_ascii"
   ],
   "note": "Parser alternatives are tried in insertion order and the parser stack is unwound on failure"
  },
  {
   "property": "C23",
   "status": "proved",
   "theorems": [
    "Verif.C23_new_matches_nothing",
    "Verif.C23_empty_pattern",
    "Verif.C23_new_matches_nothing_suffix_array",
    "Verif.C23_empty_pattern_suffix_array"
   ],
   "note": "Empty matcher and empty patterns match nothing"
  },
  {
   "property": "C24",
   "status": "proved",
   "theorems": [
    "Verif.C24_readd_replaces",
    "Verif.C24_readd_replaces_utf8",
    "Verif.C24_nonascii_panics",
    "Verif.C24_readd_replaces_suffix_array"
   ],
   "note": "Re-adding a pattern replaces the earlier one"
  },
  {
   "property": "C25",
   "status": "proved",
   "theorems": [
    "Verif.C25_literal_map"
   ],
   "note": "Suffix-array matcher answers every stored literal text with the last pattern stored for it"
  },
  {
   "property": "C26",
   "status": "proved",
   "theorems": [
    "Verif.C26_never_panics"
   ],
   "note": "Suffix-array matcher never panics"
  },
  {
   "property": "C27",
   "status": "proved",
   "theorems": [
    "Verif.C27_longest_common_prefix"
   ],
   "note": "longest_common_prefix returns an entry with the longest common prefix"
  },
  {
   "property": "C28",
   "status": "partial",
   "theorems": [
    "Verif.C28_refuted",
    "Verif.C28_loose_partial",
    "Verif.C28_literal_free_partial"
   ],
   "note": "False as stated (C28_refuted: `abc%{INT:x}` is reported for `ab5`). Proved: results are sound up to cut literals, and sound without literals; C73 gives the answer for every history."
  },
  {
   "property": "C29",
   "status": "proved",
   "theorems": [
    "Verif.C29_exactly",
    "Verif.C29_single_complete",
    "Verif.C29_single_exact",
    "Verif.C29_single_complete_ascii"
   ],
   "note": "A suffix-array matcher holding one pattern matches every text of that pattern"
  },
  {
   "property": "C30",
   "status": "partial",
   "theorems": [
    "Verif.C30_refuted",
    "Verif.C30_literal_free_partial",
    "Verif.C30_incomparable_partial",
    "Verif.C30_literals_partial"
   ],
   "note": "False as stated (C30_refuted). Proved for three kinds of pattern lists; C80 gives a further condition under which they agree; C65 and C73 give the answers of both for every history."
  },
  {
   "property": "C31",
   "status": "partial",
   "theorems": [
    "Verif.C31_refuted",
    "Verif.C31_parsers_never_tried_refuted",
    "Verif.C31_parser_led_partial"
   ],
   "note": "False as stated (C31_refuted), and false always: with a literal-led pattern no parser-led pattern is ever reported. Proved: without literal-led patterns they are tried in order."
  },
  {
   "property": "C32",
   "status": "partial",
   "theorems": [
    "Verif.C32_refuted",
    "Verif.C32_never_panics_partial",
    "Verif.C32_short_numbers_partial"
   ],
   "note": "False as stated (C32_refuted: a length option of 2^64 or more panics). Proved: exactly which strings panic, and termination for all."
  },
  {
   "property": "C33",
   "status": "proved",
   "theorems": [
    "Verif.C33_round_trip",
    "Verif.C33_compiled_wellFormed"
   ],
   "note": "Pattern strings round-trip"
  },
  {
   "property": "C34",
   "status": "proved",
   "theorems": [
    "Verif.C34_shape",
    "Verif.C34_utf8"
   ],
   "note": "Shape of compiled patterns"
  },
  {
   "property": "C35",
   "status": "partial",
   "theorems": [
    "Verif.C35_refuted",
    "Verif.C35_accepted_names_partial",
    "Verif.C35_documented_names_partial"
   ],
   "note": "False as stated (C35_refuted: `ab-c`). Proved: exactly which names are accepted."
  },
  {
   "property": "C36",
   "status": "partial",
   "theorems": [
    "Verif.C36_refuted",
    "Verif.C36_escapes_partial",
    "Verif.C36_after_greedy"
   ],
   "note": "False as stated (C36_refuted: text after GREEDY keeps its escapes). Proved for all other literal text; C36_after_greedy says in general what becomes of text after GREEDY."
  },
  {
   "property": "C37",
   "status": "proved",
   "theorems": [
    "Verif.C37_error_position"
   ],
   "note": "Reported error positions lie inside the input"
  },
  {
   "property": "C38",
   "status": "proved",
   "theorems": [
    "Verif.C38_last_option_wins"
   ],
   "note": "Length options are applied as written, the last one winning"
  },
  {
   "property": "C39",
   "status": "proved",
   "theorems": [
    "Verif.C39_plain_text",
    "Verif.C39_verbatim"
   ],
   "note": "A string without parser syntax compiles to one literal"
  },
  {
   "property": "C40",
   "status": "proved",
   "theorems": [
    "Verif.C40_from_source_ok"
   ],
   "note": "Successful from_source adds all patterns in order and has tested every message"
  },
  {
   "property": "C41",
   "status": "proved",
   "theorems": [
    "Verif.C41_from_source_error",
    "Verif.C41_later_items_ignored",
    "Verif.C41_panic"
   ],
   "note": "from_source stops at the first problem and reports it"
  },
  {
   "property": "C42",
   "status": "proved",
   "theorems": [
    "Verif.C42_ignore_errors",
    "Verif.C42_panic",
    "Verif.C42_agrees"
   ],
   "note": "from_source_ignore_errors keeps every deliverable pattern"
  },
  {
   "property": "C43",
   "status": "partial",
   "theorems": [
    "Verif.C43_refuted",
    "Verif.C43_incomparable_partial",
    "Verif.C43_parser_led_partial",
    "Verif.C43_literals_partial"
   ],
   "note": "False as stated (C43_refuted). Proved for three kinds of pattern lists; C81 says for every list what becomes of a validated message."
  },
  {
   "property": "C44",
   "status": "proved",
   "theorems": [
    "Verif.C44_verdict",
    "Verif.C44_error",
    "Verif.C44_value"
   ],
   "note": "Test message verdict"
  },
  {
   "property": "C45",
   "status": "proved",
   "theorems": [
    "Verif.C45_file_order",
    "Verif.C45_message_order"
   ],
   "note": "Pattern files are loaded last pattern first"
  },
  {
   "property": "C46",
   "status": "proved",
   "theorems": [
    "Verif.C46_json",
    "Verif.C46_yaml",
    "Verif.C46_io",
    "Verif.C46_unsupported",
    "Verif.C46_one_extension"
   ],
   "note": "File type is chosen by extension"
  },
  {
   "property": "C47",
   "status": "proved",
   "theorems": [
    "Verif.C47_pattern",
    "Verif.C47_error",
    "Verif.C47_panic"
   ],
   "note": "Pattern deserialization accepts exactly the documented objects"
  },
  {
   "property": "C48",
   "status": "partial",
   "theorems": [
    "Verif.C48_refuted",
    "Verif.C48_missing_uuid_partial"
   ],
   "note": "False as stated (C48_refuted: the error names `pattern`). Proved: such documents are refused with a missing-field error."
  },
  {
   "property": "C49",
   "status": "proved",
   "theorems": [
    "Verif.C49_hash_stream_injective",
    "Verif.C49_constructed_parsers",
    "Verif.C49_trie_one_node_each",
    "Verif.C49_suffix_array_one_node_each"
   ],
   "note": "Parsers are merged iff they are identical"
  },
  {
   "property": "C50",
   "status": "proved",
   "theorems": [
    "Verif.C50_clone",
    "Verif.C50_clone_suffix_array"
   ],
   "note": "A cloned matcher is equal and independent"
  },
  {
   "property": "C51",
   "status": "proved",
   "theorems": [
    "Verif.C51_metadata"
   ],
   "note": "The reported pattern carries the metadata of the added one"
  },
  {
   "property": "C52",
   "status": "proved",
   "theorems": [
    "Verif.C52_exactly",
    "Verif.C52_end_to_end",
    "Verif.C52_end_to_end_utf8",
    "Verif.C52_suffix_array"
   ],
   "note": "Compile, add, parse end to end"
  },
  {
   "property": "C53",
   "status": "partial",
   "theorems": [
    "Verif.C53_refuted",
    "Verif.C53_trailing_greedy_partial",
    "Verif.C53_exact"
   ],
   "note": "False as stated (C53_refuted: `app%{GREEDY:x}` and `app`). Proved for every non-empty remainder; C53_exact gives the outcome for every UTF-8 literal and remainder."
  },
  {
   "property": "C54",
   "status": "proved",
   "theorems": [
    "Verif.C54_greedy_then_set_never",
    "Verif.C54_only_greedy_then_set"
   ],
   "note": "GREEDY directly followed by a length-checked parser never matches"
  },
  {
   "property": "C55",
   "status": "proved",
   "theorems": [
    "Verif.C55_text_before_error"
   ],
   "note": "The text before a reported error can be completed"
  },
  {
   "property": "C56",
   "status": "proved",
   "theorems": [
    "Verif.C56_error_after_correct_part"
   ],
   "note": "Errors are not reported inside a correct beginning"
  },
  {
   "property": "C57",
   "status": "proved",
   "theorems": [
    "Verif.C57_concatenation"
   ],
   "note": "Concatenating pattern strings"
  },
  {
   "property": "C58",
   "status": "proved",
   "theorems": [
    "Verif.C58_language"
   ],
   "note": "The accepted language is the documented one"
  },
  {
   "property": "C59",
   "status": "proved",
   "theorems": [
    "Verif.C59_never_notUtf8"
   ],
   "note": "No 'not UTF-8 file name' error"
  },
  {
   "property": "C60",
   "status": "proved",
   "theorems": [
    "Verif.C60_from_file"
   ],
   "note": "from_file builds the matcher from the file's patterns, last one first"
  },
  {
   "property": "C61",
   "status": "proved",
   "theorems": [
    "Verif.C61_same_load_errors",
    "Verif.C61_all_patterns",
    "Verif.C61_agrees"
   ],
   "note": "from_file_ignore_errors fails only if the file cannot be loaded and agrees with from_file"
  },
  {
   "property": "C62",
   "status": "proved",
   "theorems": [
    "Verif.C62_test_message",
    "Verif.C62_error"
   ],
   "note": "Test message deserialization accepts exactly the documented objects"
  },
  {
   "property": "C63",
   "status": "proved",
   "theorems": [
    "Verif.C63_file",
    "Verif.C63_error",
    "Verif.C63_panic"
   ],
   "note": "Pattern file deserialization accepts exactly the documented objects"
  },
  {
   "property": "C64",
   "status": "partial",
   "theorems": [
    "Verif.C64_refuted",
    "Verif.C64_io_only_open_partial",
    "Verif.C64_like_empty"
   ],
   "note": "False as stated (C64_refuted: contents that are not UTF-8 are read as empty). Proved: the only I/O error is that of opening the file; such a file is loaded exactly like an empty one (C64_like_empty)."
  },
  {
   "property": "C65",
   "status": "proved",
   "theorems": [
    "Verif.C65_same_table_utf8",
    "Verif.C65_table",
    "Verif.C65_table_ascii",
    "Verif.C65_table_compiled",
    "Verif.C65_answer_unique",
    "Verif.C65_same_table",
    "Verif.C65_table_compiled_utf8",
    "Verif.C65_answer_exists"
   ],
   "note": "The trie's answers for every history follow from a flat table of leading literals"
  },
  {
   "property": "C66",
   "status": "proved",
   "theorems": [
    "Verif.C66_panics_iff",
    "Verif.C66_panics_iff_ascii",
    "Verif.C66_panics_iff_compiled",
    "Verif.C66_nonascii_start_panics",
    "Verif.C66_nonascii_literal_panics",
    "Verif.C66_no_literals_no_panic"
   ],
   "note": "Exactly which texts make the trie matcher panic"
  },
  {
   "property": "C67",
   "status": "proved",
   "theorems": [
    "Verif.C67_expected_absent"
   ],
   "note": "The expected set of a compilation error lists only what is absent"
  },
  {
   "property": "C68",
   "status": "partial",
   "theorems": [
    "Verif.C68_can_come_next_partial",
    "Verif.C68_can_come_next_refuted",
    "Verif.C68_complete_refuted"
   ],
   "note": "False as stated, in both directions (two refutations). Proved: every listed entry can come next, except the three kinds the theorem calls unreliable."
  },
  {
   "property": "C69",
   "status": "proved",
   "theorems": [
    "Verif.C69_from_json",
    "Verif.C69_not_json",
    "Verif.C69_error",
    "Verif.C69_panic"
   ],
   "note": "from_json accepts exactly the documented pattern objects"
  },
  {
   "property": "C70",
   "status": "proved",
   "theorems": [
    "Verif.C70_never_eof",
    "Verif.C70_text_determines",
    "Verif.C70_escaped",
    "Verif.C70_escaped_unique"
   ],
   "note": "The message of a compilation error is unambiguous"
  },
  {
   "property": "C71",
   "status": "partial",
   "theorems": [
    "Verif.C71_text_determines_partial",
    "Verif.C71_text_determines_refuted"
   ],
   "note": "False as stated (refuted: values and tags may contain the separating words). Proved: the text determines kind, uuid and everything except values and tags."
  },
  {
   "property": "C72",
   "status": "proved",
   "theorems": [
    "Verif.C72_builder"
   ],
   "note": "The pattern builder yields the tokens in the order of the calls"
  },
  {
   "property": "C73",
   "status": "proved",
   "theorems": [
    "Verif.C73_answer",
    "Verif.C73_chosen",
    "Verif.C73_answer_unique",
    "Verif.C73_answer_exists"
   ],
   "note": "The answers of the suffix-array matcher for every history"
  },
  {
   "property": "C74",
   "status": "proved",
   "theorems": [
    "Verif.C74_panics_iff",
    "Verif.C74_ascii",
    "Verif.C74_compiled"
   ],
   "note": "Exactly when the suffix-array matcher panics"
  },
  {
   "property": "C75",
   "status": "proved",
   "theorems": [
    "Verif.C75_family",
    "Verif.C75_family_compiled",
    "Verif.C75_answer_unique",
    "Verif.C75_family_panics"
   ],
   "note": "The answers of the trie for patterns that do not disturb each other"
  },
  {
   "property": "C76",
   "status": "proved",
   "theorems": [
    "Verif.C76_order",
    "Verif.C76_literal_led",
    "Verif.C76_parser_led",
    "Verif.C76_order_any_script",
    "Verif.C76_adding_depends_on_order"
   ],
   "note": "In such lists the order matters only between parser-led patterns, and matches are found"
  },
  {
   "property": "C77",
   "status": "proved",
   "theorems": [
    "Verif.C77_trie_answers",
    "Verif.C77_suffix_answers"
   ],
   "note": "From a pattern file to the answers"
  },
  {
   "property": "C78",
   "status": "proved",
   "theorems": [
    "Verif.C78_load_panics",
    "Verif.C78_trie_never_panics",
    "Verif.C78_suffix_never_panics",
    "Verif.C78_suffix_ignoring_panics_iff",
    "Verif.C78_suffix_panics_iff",
    "Verif.C78_trie_ignoring_panics_iff",
    "Verif.C78_trie_panics_iff"
   ],
   "note": "When loading a file panics"
  },
  {
   "property": "C79",
   "status": "proved",
   "theorems": [
    "Verif.C79_literal_led",
    "Verif.C79_other_texts",
    "Verif.C79_parser_led",
    "Verif.C79_new_parser",
    "Verif.C79_sequence"
   ],
   "note": "How adding a pattern can change an answer of the trie"
  },
  {
   "property": "C80",
   "status": "proved",
   "theorems": [
    "Verif.C80_agree",
    "Verif.C80_agree_utf8"
   ],
   "note": "When the two matchers agree"
  },
  {
   "property": "C81",
   "status": "proved",
   "theorems": [
    "Verif.C81_validated",
    "Verif.C81_validated_ascii",
    "Verif.C81_still_passes",
    "Verif.C81_still_passes_ascii",
    "Verif.C81_from_file"
   ],
   "note": "What becomes of a validated test message"
  },
  {
   "property": "C82",
   "status": "proved",
   "theorems": [
    "Verif.C82_from_source",
    "Verif.C82_from_file_error",
    "Verif.C82_from_file"
   ],
   "note": "A failed load names the pattern"
  },
  {
   "property": "C83",
   "status": "partial",
   "theorems": [
    "Verif.C83_position_partial",
    "Verif.C83_no_crlf_partial",
    "Verif.C83_refuted"
   ],
   "note": "False as stated (C83_refuted: `\\r\\n` shifts the line). Proved: the exact position that is reported, and correctness without `\\r\\n`."
  },
  {
   "property": "C84",
   "status": "proved",
   "theorems": [
    "Verif.C84_set",
    "Verif.C84_int",
    "Verif.C84_greedy",
    "Verif.C84_greedy_from_str"
   ],
   "note": "The last setting of a parser counts"
  },
  {
   "property": "C85",
   "status": "proved",
   "theorems": [
    "Verif.C85_trie",
    "Verif.C85_suffix_array"
   ],
   "note": "Bounded work per message"
  },
  {
   "property": "C86",
   "status": "proved",
   "theorems": [
    "Verif.C86_one_outcome",
    "Verif.C86_grammar_file",
    "Verif.C86_language"
   ],
   "note": "The checked-in parser implements the grammar file"
  },
  {
   "property": "C87",
   "status": "proved",
   "theorems": [
    "Verif.C87_trie",
    "Verif.C87_suffix_array"
   ],
   "note": "Bounded memory"
  },
  {
   "property": "C88",
   "status": "proved",
   "theorems": [
    "Verif.C88_trie_height",
    "Verif.C88_trie",
    "Verif.C88_suffix_array_height",
    "Verif.C88_suffix_array",
    "Verif.C88_trie_same",
    "Verif.C88_suffix_array_same"
   ],
   "note": "Bounded call depth"
  },
  {
   "property": "C89",
   "status": "partial",
   "theorems": [
    "Verif.C89_converted_partial",
    "Verif.C89_exactly",
    "Verif.C89_refuted"
   ],
   "note": "False as stated (C89_refuted: `%{` in literal text is not escaped). Proved for literal text without `%{` and (unless it ends a GREEDY) `\\%\\{`; C89_exactly shows that it holds only then."
  },
  {
   "property": "C90",
   "status": "partial",
   "theorems": [
    "Verif.C90_refuted",
    "Verif.C90_escape_partial"
   ],
   "note": "False as stated (C90_refuted: `@@` is not converted). Proved: such a pattern is refused as a whole."
  },
  {
   "property": "C91",
   "status": "proved",
   "theorems": [
    "Verif.C91_unsupported",
    "Verif.C91_exactly"
   ],
   "note": "Patterns with unsupported parsers are left out as a whole"
  },
  {
   "property": "C92",
   "status": "partial",
   "theorems": [
    "Verif.C92_file_partial",
    "Verif.C92_exactly",
    "Verif.C92_refuted"
   ],
   "note": "False as stated (C92_refuted: an example without values makes the file unreadable). Proved if every example of a rule with a converted pattern has values, and C92_exactly shows that the file can be loaded only then."
  },
  {
   "property": "C93",
   "status": "proved",
   "theorems": [
    "Verif.C93_distinct"
   ],
   "note": "Converted patterns can be told apart"
  },
  {
   "property": "C94",
   "status": "partial",
   "theorems": [
    "Verif.C94_rule_found_partial",
    "Verif.C94_rule_found_iff",
    "Verif.C94_refuted"
   ],
   "note": "False as stated (C94_refuted: the id is lost if the first pattern of a rule is refused). Proved if the first pattern is converted; C94_rule_found_iff shows that with different ids it is so only then."
  },
  {
   "property": "C95",
   "status": "proved",
   "theorems": [
    "Verif.C95_trie",
    "Verif.C95_trie_literals",
    "Verif.C95_suffix_array",
    "Verif.C95_suffix_array_literal"
   ],
   "note": "Matching cost does not grow with the number of literals"
  },
  {
   "property": "C96",
   "status": "proved",
   "theorems": [
    "Verif.C96_add_panics_iff",
    "Verif.C96_build_panics_iff",
    "Verif.C96_build_panics_iff_compiled",
    "Verif.C96_nonascii_literal_excludes_others",
    "Verif.C96_one_literal_never_panics"
   ],
   "note": "Exactly which patterns cannot be added to the trie matcher"
  },
  {
   "property": "C97",
   "status": "proved",
   "theorems": [
    "Verif.C97_trie_same",
    "Verif.C97_suffix_same",
    "Verif.C97_trie_needed",
    "Verif.C97_suffix_needed",
    "Verif.C97_trie",
    "Verif.C97_suffix"
   ],
   "note": "Bounded call depth when adding a pattern"
  },
  {
   "property": "C98",
   "status": "proved",
   "theorems": [
    "Verif.C98_literal_led",
    "Verif.C98_parser_led_dead",
    "Verif.C98_farther",
    "Verif.C98_first_literal",
    "Verif.C98_parser_led",
    "Verif.C98_sequence",
    "Verif.C98_farther_sequence"
   ],
   "note": "How adding a pattern can change an answer of the suffix array"
  },
  {
   "property": "C99",
   "status": "proved",
   "theorems": [
    "Verif.C99_validated",
    "Verif.C99_still_passes",
    "Verif.C99_from_file"
   ],
   "note": "What becomes of a validated test message in a suffix array"
  },
  {
   "property": "C100",
   "status": "proved",
   "theorems": [
    "Verif.C100_same_order",
    "Verif.C100_order_counts",
    "Verif.C100_order_counts_utf8"
   ],
   "note": "When the order of additions matters in the suffix array"
  },
  {
   "property": "C101",
   "status": "proved",
   "theorems": [
    "Verif.C101_trie",
    "Verif.C101_trie_utf8",
    "Verif.C101_nonascii_panics",
    "Verif.C101_suffix"
   ],
   "note": "Adding the same patterns again changes nothing"
  },
  {
   "property": "C102",
   "status": "proved",
   "theorems": [
    "Verif.C102_local",
    "Verif.C102_others_do_not_count",
    "Verif.C102_local_utf8",
    "Verif.C102_not_in_suffix_array"
   ],
   "note": "The trie's answer depends only on patterns with the text's first character"
  },
  {
   "property": "C103",
   "status": "proved",
   "theorems": [
    "Verif.C103_read",
    "Verif.C103_distinct",
    "Verif.C103_readable",
    "Verif.C103_unreadable_dies",
    "Verif.C103_patterndb_readable",
    "Verif.C103_text_between",
    "Verif.C103_read_with_text",
    "Verif.C103_text_pieces",
    "Verif.C103_read_pieces"
   ],
   "note": "What the conversion script reads from a patterndb"
  },
  {
   "property": "C104",
   "status": "proved",
   "theorems": [
    "Verif.C104_script",
    "Verif.C104_file",
    "Verif.C104_exactly"
   ],
   "note": "From a patterndb to a loaded pattern file"
  },
  {
   "property": "C105",
   "status": "proved",
   "theorems": [
    "Verif.C105_rest",
    "Verif.C105_tokens",
    "Verif.C105_messages",
    "Verif.C105_new"
   ],
   "note": "Patterns under any sequence of calls"
  },
  {
   "property": "C106",
   "status": "proved",
   "theorems": [
    "Verif.C106_trie",
    "Verif.C106_suffix",
    "Verif.C106_size",
    "Verif.C106_utf8"
   ],
   "note": "The values of an answer are separate pieces of the message"
  },
  {
   "property": "C107",
   "status": "proved",
   "theorems": [
    "Verif.C107_answer",
    "Verif.C107_complete"
   ],
   "note": "From a patterndb to the answers"
  },
  {
   "property": "C108",
   "status": "proved",
   "theorems": [
    "Verif.C108_kind"
   ],
   "note": "The description of an error tells its kind"
  },
  {
   "property": "C109",
   "status": "partial",
   "theorems": [
    "Verif.C109_text_partial",
    "Verif.C109_passed_on",
    "Verif.C109_refuted"
   ],
   "note": "False as stated (C109_refuted: a test message that matches nothing, and an unsupported extension). Proved for all other errors."
  },
  {
   "property": "C110",
   "status": "proved",
   "theorems": [
    "Verif.C110_filled",
    "Verif.C110_injective",
    "Verif.C110_not_in_suffix_array"
   ],
   "note": "An answer of the trie determines the message"
  },
  {
   "property": "C111",
   "status": "proved",
   "theorems": [
    "Verif.C111_any_script",
    "Verif.C111_suffix_any_script",
    "Verif.C111_satisfiable",
    "Verif.C111_suffix",
    "Verif.C111_never"
   ],
   "note": "Exactly which pattern strings can match at all"
  },
  {
   "property": "C112",
   "status": "partial",
   "theorems": [
    "Verif.C112_refuted",
    "Verif.C112_keys_partial",
    "Verif.C112_merged_partial"
   ],
   "note": "False as stated (C112_refuted: a loaded pattern whose test message expects the additional value). Proved: keys of the values of an answer are names of parsers, and what merging gives."
  },
  {
   "property": "C113",
   "status": "proved",
   "theorems": [
    "Verif.C113_any_script",
    "Verif.C113_single",
    "Verif.C113_literal_end"
   ],
   "note": "What can be added to the end of an answered message"
  },
  {
   "property": "C114",
   "status": "proved",
   "theorems": [
    "Verif.C114_trie_literal",
    "Verif.C114_trie_parser",
    "Verif.C114_suffix_literal",
    "Verif.C114_suffix_parser"
   ],
   "note": "Bounded work when adding a pattern"
  },
  {
   "property": "C115",
   "status": "proved",
   "theorems": [
    "Verif.C115_trie",
    "Verif.C115_suffix",
    "Verif.C115_renamed",
    "Verif.C115_descriptions",
    "Verif.C115_condition_needed"
   ],
   "note": "Names of parsers and descriptions of patterns are only labels"
  },
  {
   "property": "C116",
   "status": "proved",
   "theorems": [
    "Verif.C116_all_or_nothing",
    "Verif.C116_found",
    "Verif.C116_lost",
    "Verif.C116_whole_or_not_at_all",
    "Verif.C116_stays",
    "Verif.C116_replaced"
   ],
   "note": "A pattern of a trie is kept or lost as a whole"
  },
  {
   "property": "C117",
   "status": "proved",
   "theorems": [
    "Verif.C117_late_never",
    "Verif.C117_found",
    "Verif.C117_literals"
   ],
   "note": "Which patterns a trie keeps when their leading literals differ"
  },
  {
   "property": "C118",
   "status": "proved",
   "theorems": [
    "Verif.C118_found",
    "Verif.C118_literal",
    "Verif.C118_only_last",
    "Verif.C118_replaced",
    "Verif.C118_parser_led"
   ],
   "note": "Which patterns a suffix array keeps"
  },
  {
   "property": "C119",
   "status": "proved",
   "theorems": [
    "Verif.C119_kept_when_added",
    "Verif.C119_kept",
    "Verif.C119_late_rejected",
    "Verif.C119_none_lost",
    "Verif.C119_file",
    "Verif.C119_still_passes",
    "Verif.C119_kept_passes"
   ],
   "note": "A test message shows that its pattern was not lost"
  },
  {
   "property": "C120",
   "status": "proved",
   "theorems": [
    "Verif.C120_literal",
    "Verif.C120_every_text",
    "Verif.C120_empty"
   ],
   "note": "Every message text can be written as a pattern"
  },
  {
   "property": "C121",
   "status": "proved",
   "theorems": [
    "Verif.C121_trie_same",
    "Verif.C121_trie_collisions",
    "Verif.C121_no_collision_left",
    "Verif.C121_replacement",
    "Verif.C121_trie_sound",
    "Verif.C121_suffix_array_same",
    "Verif.C121_suffix_array_collisions",
    "Verif.C121_suffix_array_answer"
   ],
   "note": "The hash function matters only for parsers with the same hash"
  },
  {
   "property": "C122",
   "status": "proved",
   "theorems": [
    "Verif.C122_load",
    "Verif.C122_from_file",
    "Verif.C122_only_contents"
   ],
   "note": "JSON and YAML pattern files with the same data are the same"
  },
  {
   "property": "C123",
   "status": "proved",
   "theorems": [
    "Verif.C123_test_message",
    "Verif.C123_pattern",
    "Verif.C123_file",
    "Verif.C123_yaml_file",
    "Verif.C123_matcher"
   ],
   "note": "The order of the entries of objects in a pattern file does not matter"
  },
  {
   "property": "C124",
   "status": "proved",
   "theorems": [
    "Verif.C124_same_pattern"
   ],
   "note": "Pattern strings are the same pattern exactly when they differ in spelling only"
  },
  {
   "property": "C125",
   "status": "proved",
   "theorems": [
    "Verif.C125_same_results",
    "Verif.C125_same_results_iff",
    "Verif.C125_trie",
    "Verif.C125_suffix_array",
    "Verif.C125_condition_needed"
   ],
   "note": "Which parsers do the same on every text, and that they can be exchanged"
  },
  {
   "property": "C126",
   "status": "partial",
   "theorems": [
    "Verif.C126_reported_partial",
    "Verif.C126_silent",
    "Verif.C126_refuted",
    "Verif.C126_no_false_alarm",
    "Verif.C126_rules",
    "Verif.C126_values",
    "Verif.C126_review",
    "Verif.C126_inexact",
    "Verif.C126_db"
   ],
   "note": "False as stated (C126_refuted): the patterns that are empty, `@`, `0` or `0@` are left out silently. Proved: these four are the only ones (C126_silent), all other patterns that are left out are reported (C126_reported_partial, C126_db), and so are rules without program, values with macros and approximated parsers, with no false alarms."
  },
  {
   "property": "C127",
   "status": "partial",
   "theorems": [
    "Verif.C127_rules_partial",
    "Verif.C127_runs_partial",
    "Verif.C127_order",
    "Verif.C127_order_suffix",
    "Verif.C127_answers_partial",
    "Verif.C127_answers_suffix_partial",
    "Verif.C127_refuted"
   ],
   "note": "False as stated (C127_refuted): the script visits rules in the order of a Perl hash, and two patterns that begin with parsers answer for each other depending on it. Proved: both documents load and hold the same patterns up to order, numbers in names and made-up uuids (C127_rules_partial, C127_runs_partial), and the answers are the same if the order of the patterns does not matter (C127_order, C127_answers_partial)."
  },
  {
   "property": "C128",
   "status": "partial",
   "theorems": [
    "Verif.C128_lost_partial",
    "Verif.C128_lost_same_partial",
    "Verif.C128_parser_led_partial",
    "Verif.C128_suffix_replaced_partial",
    "Verif.C128_suffix_parser_led_partial",
    "Verif.C128_refuted",
    "Verif.C128_suffix_refuted"
   ],
   "note": "False as stated for both matchers (C128_refuted, C128_suffix_refuted). Proved: deleting a pattern that was lost when it was added changes no answer, except that texts that begin with its literal and had no answer may get one (C128_lost_partial), and nothing if another pattern begins with this literal; deleting a pattern with a first parser of its own changes nothing for texts it does not match; in a suffix array replaced patterns, and parser-led ones next to literal-led ones, can be deleted without effect."
  },
  {
   "property": "C129",
   "status": "proved",
   "theorems": [
    "Verif.C129_walk",
    "Verif.C129_own",
    "Verif.C129_ends"
   ],
   "note": "The causes of an error"
  },
  {
   "property": "C130",
   "status": "partial",
   "theorems": [
    "Verif.C130_reads",
    "Verif.C130_same_partial",
    "Verif.C130_exactly",
    "Verif.C130_refuted",
    "Verif.C130_greedy_refuted"
   ],
   "note": "False as stated (C130_refuted, C130_greedy_refuted: `%{INT:a}5` does not match `15`). Proved: the regular expression matches whatever is answered, for every trie (C130_reads); the converse, with the only possible groups, if it is clear where the parsers end and the end strings of GREEDY occur once (C130_same_partial); C130_exactly: for ASCII strings actiondb and the regular expression read all texts alike only under such conditions."
  },
  {
   "property": "C131",
   "status": "proved",
   "theorems": [
    "Verif.C131_trie",
    "Verif.C131_ascii",
    "Verif.C131_suffix",
    "Verif.C131_one",
    "Verif.C131_exactly",
    "Verif.C131_overtaken",
    "Verif.C131_can_panic",
    "Verif.C131_more_characters"
   ],
   "note": "Trie and suffix array, with the exception of the overtaken answer in the statement (C131_overtaken shows it happens); the loosened trie may panic where C66 says so (C131_can_panic), hence the second parse is assumed to return, except in C131_ascii. C131_exactly: looser limits are the only change of ASCII sets that keeps every value; C131_more_characters: adding characters loses messages."
  },
  {
   "property": "C132",
   "status": "proved",
   "theorems": [
    "Verif.C132_trie",
    "Verif.C132_suffix_array",
    "Verif.C132_trie_any_stack",
    "Verif.C132_suffix_array_any_stack",
    "Verif.C132_trie_needed",
    "Verif.C132_suffix_array_needed"
   ],
   "note": "Frames are counted for the functions of the matchers; Option, Box, strings and parsers add a constant number per call. Dropping is what the compiler derives; there is no Drop implementation in the code."
  },
  {
   "property": "C133",
   "status": "proved",
   "theorems": [
    "Verif.C133_trie",
    "Verif.C133_ascii",
    "Verif.C133_suffix_array",
    "Verif.C133_other",
    "Verif.C133_parser_led",
    "Verif.C133_trie_panics"
   ],
   "note": "trie: equality of answers when neither run panics (C133_trie), unconditional for ASCII (C133_ascii); suffix array unconditional including panics; C133_parser_led shows that patterns beginning with parsers have to be excluded"
  },
  {
   "property": "C134",
   "status": "proved",
   "theorems": [
    "Verif.C134_linear",
    "Verif.C134_plain"
   ],
   "note": "the counter counts looks at the string (slice_eq, character classes, any_char); the actions and pos_to_line are not counted; C134_linear also says that the counting functions compute what compile computes; C134_plain gives the exact count for plain text"
  },
  {
   "property": "C135",
   "status": "proved",
   "theorems": [
    "Verif.C135_trie",
    "Verif.C135_compiled",
    "Verif.C135_suffix_array",
    "Verif.C135_digits"
   ],
   "note": "C135_compiled for patterns from ASCII pattern strings; no two leading parsers may have the same hash before or after (NoCollision); C135_digits and C135_suffix_array show why digits are kept and that the suffix array is left out"
  },
  {
   "property": "C136",
   "status": "proved",
   "theorems": [
    "Verif.C136_trie",
    "Verif.C136_trie_none",
    "Verif.C136_exactly",
    "Verif.C136_suffix_longest",
    "Verif.C136_suffix_shorter",
    "Verif.C136_unbounded"
   ],
   "note": "C136_exactly for ASCII pattern strings without GREEDY; the bounds (C136_trie, C136_trie_none) for all patterns; C136_suffix_longest and C136_suffix_shorter say what is left of this for the suffix array"
  },
  {
   "property": "C137",
   "status": "proved",
   "theorems": [
    "Verif.C137_shows",
    "Verif.C137_exists",
    "Verif.C137_exactly"
   ],
   "note": "C137_exactly and C137_exists for ASCII pattern strings; C137_shows for lists in any script whose uuids tell the patterns apart (UuidsTell) and whose leading parsers have different hashes (NoCollision)"
  },
  {
   "property": "C138",
   "status": "proved",
   "theorems": [
    "Verif.C138_trie",
    "Verif.C138_suffix_array",
    "Verif.C138_both"
   ],
   "note": "For lists in which a uuid stands for one pattern (UuidsTell; an instance shows that it is needed) and whose leading parsers have different hashes (NoCollision); C138_trie, C138_suffix_array, C138_both"
  },
  {
   "property": "C139",
   "status": "proved",
   "theorems": [
    "Verif.C139_fewer",
    "Verif.C139_order",
    "Verif.C139_same_matcher",
    "Verif.C139_ignored"
   ],
   "note": "For every matcher implementation. The two versions of a pattern both have a (possibly empty) list of test messages or neither has, since the stored pattern tells these apart; that answers do not depend on this is part of C115"
  },
  {
   "property": "C140",
   "status": "proved",
   "theorems": [
    "Verif.C140_answers",
    "Verif.C140_same",
    "Verif.C140_panics"
   ],
   "note": "Calls do not overlap (add_pattern needs exclusive access), so a concurrent program is some sequence of calls; calls on matchers that do not exist or were dropped, which the compiler rejects, have no effect in the model"
  },
  {
   "property": "C141",
   "status": "proved",
   "theorems": [
    "Verif.C141_compiled",
    "Verif.C141_trie",
    "Verif.C141_suffix_array",
    "Verif.C141_twice"
   ],
   "note": "C141_twice shows that the factor 2 is needed"
  },
  {
   "property": "C142",
   "status": "proved",
   "theorems": [
    "Verif.C142_trie",
    "Verif.C142_trie_utf8",
    "Verif.C142_suffix_array",
    "Verif.C142_earlier_counts",
    "Verif.C142_later_counts"
   ],
   "note": "C142_earlier_counts and C142_later_counts show that in a trie the condition on the patterns in between is needed"
  },
  {
   "property": "C143",
   "status": "proved",
   "theorems": [
    "Verif.C143_first",
    "Verif.C143_file",
    "Verif.C143_suffix_answers",
    "Verif.C143_trie_answers",
    "Verif.C143_suffix_array",
    "Verif.C143_trie",
    "Verif.C143_trie_counts",
    "Verif.C143_parsers_count"
   ],
   "note": "C143_trie_counts and C143_parsers_count show that the conditions are needed"
  },
  {
   "property": "C144",
   "status": "proved",
   "theorems": [
    "Verif.C144_by_kind",
    "Verif.C144_ascii",
    "Verif.C144_conditions_count"
   ],
   "note": "Calls are those of the trait Matcher and of the two factories; C144_conditions_count shows panicking programs for each condition."
  },
  {
   "property": "C145",
   "status": "proved",
   "theorems": [
    "Verif.C145_trie_answers",
    "Verif.C145_trie",
    "Verif.C145_trie_together",
    "Verif.C145_suffix_answers",
    "Verif.C145_suffix_array",
    "Verif.C145_trie_counts",
    "Verif.C145_suffix_counts"
   ],
   "note": "C145_trie_counts and C145_suffix_counts show that the conditions are needed."
  },
  {
   "property": "C146",
   "status": "proved",
   "theorems": [
    "Verif.C146_order",
    "Verif.C146_literals_first",
    "Verif.C146_exact",
    "Verif.C146_fallback",
    "Verif.C146_first_character",
    "Verif.C146_suffix_array",
    "Verif.C146_no_way_back_counts"
   ],
   "note": "The exact condition is stated with the table of C65; C146_no_way_back_counts is the example in which parsers are not asked."
  },
  {
   "property": "C147",
   "status": "proved",
   "theorems": [
    "Verif.C147_trie_later",
    "Verif.C147_trie",
    "Verif.C147_trie_utf8",
    "Verif.C147_suffix_array_later",
    "Verif.C147_suffix_array",
    "Verif.C147_bound",
    "Verif.C147_two_count"
   ],
   "note": "Trie for ASCII literals (C147_trie), and for UTF-8 literals if both lists of additions return (C147_trie_utf8); C147_two_count shows that the factor 2 is needed."
  },
  {
   "property": "C148",
   "status": "proved",
   "theorems": [
    "Verif.C148_now_or_never",
    "Verif.C148_never",
    "Verif.C148_again"
   ],
   "note": "Never found: for lists in which a uuid stands for one pattern (UuidsTell)."
  },
  {
   "property": "C149",
   "status": "proved",
   "theorems": [
    "Verif.C149_three",
    "Verif.C149_two_do_not_count"
   ],
   "note": "For lists with pairwise different uuids; the run with all patterns is assumed not to panic."
  },
  {
   "property": "C150",
   "status": "proved",
   "theorems": [
    "Verif.C150_message",
    "Verif.C150_load",
    "Verif.C150_file",
    "Verif.C150_pairs_do_not_count"
   ],
   "note": "Trie, ASCII patterns and messages (C13: no panic)."
  },
  {
   "property": "C151",
   "status": "proved",
   "theorems": [
    "Verif.C151_pairs",
    "Verif.C151_three",
    "Verif.C151_parsers_count"
   ],
   "note": "Suffix array, UTF-8 patterns, different uuids, no collision of the hashes of leading parsers."
  },
  {
   "property": "C152",
   "status": "proved",
   "theorems": [
    "Verif.C152_message",
    "Verif.C152_load",
    "Verif.C152_load_iff",
    "Verif.C152_file",
    "Verif.C152_singles_do_not_count"
   ],
   "note": "Suffix array, UTF-8 patterns and messages, different uuids, no collision of the hashes of leading parsers."
  },
  {
   "property": "C153",
   "status": "proved",
   "theorems": [
    "Verif.C153_trie",
    "Verif.C153_suffix_array",
    "Verif.C153_others_count"
   ],
   "note": "Trie: ASCII patterns and messages; suffix array: UTF-8; no collision of the hashes of leading parsers."
  },
  {
   "property": "C154",
   "status": "proved",
   "theorems": [
    "Verif.C154_add",
    "Verif.C154_parse",
    "Verif.C154_found",
    "Verif.C154_fewer_do_not_count",
    "Verif.C154_not_conversely"
   ],
   "note": "UTF-8 literals, nonempty and not adjacent; no collision of the hashes of leading parsers."
  },
  {
   "property": "C155",
   "status": "proved",
   "theorems": [
    "Verif.C155_last",
    "Verif.C155_append",
    "Verif.C155_load",
    "Verif.C155_file",
    "Verif.C155_pairs_do_not_count"
   ],
   "note": "UTF-8 literals, nonempty and not adjacent; no collision of the hashes of leading parsers. Extends C150 and the first half of C153, which are for ASCII."
  },
  {
   "property": "C156",
   "status": "proved",
   "theorems": [
    "Verif.C156_answer",
    "Verif.C156_message",
    "Verif.C156_pairs_do_not_count"
   ],
   "note": "UTF-8 literals, nonempty and not adjacent; no collision of the hashes of leading parsers. Extends C149 and C150, where the absence of a panic is assumed or follows from ASCII."
  },
  {
   "property": "C157",
   "status": "proved",
   "theorems": [
    "Verif.C157_trie",
    "Verif.C157_suffix_array",
    "Verif.C157_panics",
    "Verif.C157_sizes_count"
   ],
   "note": "Under the conditions of C155 (trie) and C152 (suffix array)."
  },
  {
   "property": "C158",
   "status": "proved",
   "theorems": [
    "Verif.C158_add",
    "Verif.C158_parse",
    "Verif.C158_ascii_leading",
    "Verif.C158_conditions_count",
    "Verif.C158_not_conversely"
   ],
   "note": "A sufficient condition; C158_not_conversely shows that it is not necessary (C96 and C66 have the exact ones)."
  }
 ]
}