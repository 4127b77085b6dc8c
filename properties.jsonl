{"id": "C01", "title": "common_prefix_len is the longest common prefix that ends on a character boundary", "statement": "For any two strings a and b, n = a.common_prefix_len(b) satisfies: a[..n] = b[..n], n is a character boundary of both a and b, and every m that is a character boundary of a with a[..m] = b[..m] has m <= n.", "quantifier": "all pairs of valid UTF-8 strings", "why_tests_cant": "The claim ranges over infinitely many strings/pattern sets; tests only sample a few literals. Multi-byte characters sharing leading bytes are easy to miss.", "anchors": ["src/utils/common_prefix.rs::common_prefix_len"]}
{"id": "C02", "title": "common prefix is symmetric and the truncation helpers are safe at it", "statement": "a.common_prefix_len(b) = b.common_prefix_len(a); has_common_prefix is None exactly when one string is empty or their first characters differ; ltrunc(n) on either string never panics and re-joining the common prefix with the truncated rest gives the string back.", "quantifier": "all pairs of valid UTF-8 strings", "why_tests_cant": "The claim ranges over infinitely many strings/pattern sets; tests only sample a few literals.", "anchors": ["src/utils/common_prefix.rs::has_common_prefix", "src/utils/common_prefix.rs::ltrunc", "src/utils/common_prefix.rs::rtrunc"]}
{"id": "C03", "title": "SortedVec stays sorted and loses nothing", "statement": "After any sequence of push and (in-range) remove calls starting from SortedVec::new(), the elements are in non-decreasing order and are, as a multiset, the pushed ones minus the removed ones. Replacing an element through get_mut by one that compares equal to it keeps the order and changes nothing else.", "quantifier": "all operation sequences, all element types with a lawful total order", "why_tests_cant": "Needs an invariant over every history of operations.", "anchors": ["src/utils/sortedvec.rs::push", "src/utils/sortedvec.rs::remove"]}
{"id": "C04", "title": "SortedVec search is complete and correct", "statement": "On every reachable SortedVec, find_pos(v) returns an index holding an element equal to v if one exists and None otherwise, find returns that element, the search terminates and never indexes out of range; binary_search_by(cmp v) returns Ok at an equal element or Err(i) with i the insertion point.", "quantifier": "all histories, all probe values", "why_tests_cant": "Off-by-one errors in a binary search show up only for particular sizes/positions.", "anchors": ["src/utils/sortedvec.rs::find_pos", "src/utils/sortedvec.rs::find", "src/utils/sortedvec.rs::binary_search_by", "src/utils/sortedvec.rs::binary_search"]}
{"id": "C05", "title": "SET parser accepts exactly the maximal leading run within its length limits", "statement": "SetParser::parse(text) returns v iff v is a prefix of text, all bytes of v are bytes of the given set, v is maximal (the next byte, if any, is not in the set), v is non-empty, and min_len <= |v| <= max_len where given. Otherwise it returns None.", "quantifier": "all sets, all length limits, all texts on which slicing is defined", "why_tests_cant": "The claim ranges over infinitely many strings/pattern sets; tests only sample a few literals.", "anchors": ["src/parsers/set.rs::parse", "src/parsers/set.rs::calculate_match_length", "src/parsers/has_length_constraint.rs::is_match_length_ok"]}
{"id": "C06", "title": "INT parser is the SET parser over the ten ASCII digits", "statement": "IntParser::parse(text) returns v iff v is the maximal non-empty run of ASCII digits at the start of text and its length is within the configured limits; it never panics on any string.", "quantifier": "all length limits, all valid UTF-8 texts", "why_tests_cant": "The claim ranges over infinitely many strings/pattern sets; tests only sample a few literals.", "anchors": ["src/parsers/int.rs::parse"]}
{"id": "C07", "title": "GREEDY stops at the first occurrence of its end string", "statement": "With end string e, GreedyParser::parse(text) returns v iff text = v ++ e ++ r for some r and no shorter prefix of text is followed by e; it returns None iff e does not occur in text. Without end string it returns the whole text. It never panics.", "quantifier": "all end strings, all valid UTF-8 texts", "why_tests_cant": "The claim ranges over infinitely many strings/pattern sets; tests only sample a few literals.", "anchors": ["src/parsers/greedy.rs::parse"]}
{"id": "C08", "title": "Parsers never panic and never cut a character when SET arguments are ASCII", "statement": "For every parser whose SET argument is ASCII (and every INT and GREEDY parser), parse on any valid UTF-8 text does not panic, and a returned value is a prefix of the text ending on a character boundary, hence itself valid UTF-8, as is the remaining text.", "quantifier": "all parsers with ASCII sets, all valid UTF-8 texts", "why_tests_cant": "Panics depend on specific multi-byte neighbours of the match end.", "anchors": ["src/parsers/set.rs::parse", "src/parsers/greedy.rs::parse"]}
{"id": "C09", "title": "Parsers never panic for any SET argument", "statement": "For every SET argument (including non-ASCII ones) and every valid UTF-8 text, SetParser::parse does not panic.", "quantifier": "all sets and all valid UTF-8 texts", "why_tests_cant": "The failing texts share only some bytes with the set's characters.", "anchors": ["src/parsers/set.rs::create_set_from_str", "src/parsers/set.rs::parse"]}
{"id": "C10", "title": "SET with a length range behaves like the regular expression [set]{min,max}", "statement": "README: %{SET(\"abcd\",min_len=1,max_len=2)} is identical to [abcd]{1,2}: on any text whose leading run of set characters has length k, it matches a prefix of min(k,max) characters iff min <= k.", "quantifier": "all ASCII sets, limits and texts", "why_tests_cant": "The claim ranges over infinitely many strings/pattern sets; tests only sample a few literals.", "anchors": ["README.md", "src/parsers/set.rs::parse", "src/parsers/has_length_constraint.rs::is_match_length_ok"]}
{"id": "C11", "title": "Trie matcher is sound", "statement": "If, after any history of add_pattern calls, Matcher::parse(text) returns a result, then its pattern is one of the added patterns and that pattern's token sequence matches the whole text: the text is the concatenation of the literals and of the values its parsers return in order.", "quantifier": "all histories of patterns (with no 64-bit hash collision among their parsers), all texts", "why_tests_cant": "Soundness quantifies over every set of patterns and every interleaving of node splits.", "anchors": ["src/matcher/trie/node/mod.rs::insert", "src/matcher/trie/node/mod.rs::parse", "src/matcher/trie/node/mod.rs::lookup_literal", "src/matcher/trie/node/literal.rs::split", "src/matcher/trie/node/parser.rs::parse"]}
{"id": "C12", "title": "Extracted values are exactly the named captures, first occurrence winning", "statement": "The values of a trie match are exactly: for every parser name occurring in the matched pattern, the text piece parsed by the first (leftmost) parser with that name; unnamed parsers contribute nothing.", "quantifier": "all histories, all texts", "why_tests_cant": "Ranges over all patterns and duplicates.", "anchors": ["src/matcher/result.rs::insert", "src/matcher/trie/node/mod.rs::parse_then_push_kvpair", "src/matcher/trie/node/parser.rs::push_last_kvpair"]}
{"id": "C13", "title": "Trie matcher never panics on ASCII patterns and messages", "statement": "For every history of patterns whose literals and SET arguments are ASCII and every ASCII text, add_pattern and parse return normally: none of the unwrap/expect/unreachable!/slicing sites in the trie can fire.", "quantifier": "all histories of ASCII patterns, all ASCII texts", "why_tests_cant": "The unwraps are justified only by an invariant over all reachable tries.", "anchors": ["src/matcher/trie/node/mod.rs::lookup_literal_mut", "src/matcher/trie/node/mod.rs::insert_literal_tail", "src/matcher/trie/node/mod.rs::lookup_freshly_inserted_literal", "src/matcher/trie/node/parser.rs::push_last_kvpair", "src/matcher/trie/node/literal.rs::cmp_str", "src/matcher/trie/node/literal.rs::split"]}
{"id": "C14", "title": "Trie matcher never panics on any valid UTF-8 pattern or message", "statement": "For every history of patterns and every valid UTF-8 text, add_pattern and parse return normally.", "quantifier": "all histories, all valid UTF-8 texts", "why_tests_cant": "Depends on where in the trie a multi-byte character is compared.", "anchors": ["src/matcher/trie/node/literal.rs::cmp_str", "src/matcher/trie/node/mod.rs::search"]}
{"id": "C15", "title": "A literal pattern is matched right after it was added", "statement": "After any history of ASCII patterns, adding a pattern that consists of the single literal L makes parse(L) return exactly that pattern with no extracted values.", "quantifier": "all histories, all non-empty ASCII literals", "why_tests_cant": "Any earlier split, overwritten child or stale node could break it.", "anchors": ["src/matcher/trie/node/mod.rs::insert_literal", "src/matcher/trie/node/mod.rs::search"]}
{"id": "C16", "title": "A trie of literal patterns is a map from texts to the last pattern added for the text", "statement": "For every history of single-literal patterns, parse(text) returns the last added pattern whose literal equals text, and None if there is none.", "quantifier": "all histories of ASCII literal patterns, all ASCII texts", "why_tests_cant": "A refinement statement over every history and key.", "anchors": ["src/matcher/trie/node/mod.rs::insert_literal", "src/matcher/trie/node/mod.rs::insert_literal_tail", "src/matcher/trie/node/literal.rs::split", "src/matcher/trie/node/mod.rs::lookup_literal"]}
{"id": "C17", "title": "Adding a pattern never stops an earlier pattern from matching", "statement": "If a text is matched by an already added pattern, then after adding any further pattern the text is still matched (by the old or by the new pattern).", "quantifier": "all histories, all added patterns, all texts", "why_tests_cant": "Loss happens only for particular shared prefixes.", "anchors": ["src/matcher/trie/node/interface.rs::Entry::insert", "src/matcher/trie/node/mod.rs::insert"]}
{"id": "C18", "title": "A trie holding one pattern matches exactly the texts of that pattern", "statement": "For a compiled pattern without empty or adjacent literals (every pattern the grammar produces), a trie containing only this pattern returns a match iff the token sequence matches the whole text and the text does not end right after a literal that still has tokens following it; the values are the captures.", "quantifier": "all grammar-shaped ASCII patterns, all ASCII texts", "why_tests_cant": "The claim ranges over infinitely many strings/pattern sets; tests only sample a few literals.", "anchors": ["src/matcher/trie/node/mod.rs::insert", "src/matcher/trie/node/mod.rs::parse", "src/matcher/trie/node/parser.rs::parse"]}
{"id": "C19", "title": "Patterns with incomparable leading literals do not interfere in the trie", "statement": "If all added patterns start with literals none of which is a prefix of another, parse(text) returns p's match iff p is an added pattern that alone matches text; in particular every pattern keeps matching what it matches alone, independent of the others.", "quantifier": "all such families (any size, any insertion order), all ASCII texts", "why_tests_cant": "Every possible split structure of the trie has to be considered.", "anchors": ["src/matcher/trie/node/mod.rs::insert", "src/matcher/trie/node/mod.rs::insert_literal_tail", "src/matcher/trie/node/literal.rs::split", "src/matcher/trie/node/mod.rs::parse"]}
{"id": "C20", "title": "Insertion order does not matter", "statement": "Building a trie from two permutations of the same list of patterns yields matchers that answer every text identically.", "quantifier": "all lists of patterns, all permutations, all texts", "why_tests_cant": "Quantifies over permutations and texts.", "anchors": ["src/matcher/trie/node/mod.rs::insert"]}
{"id": "C21", "title": "Literal matches have precedence over parser matches", "statement": "After any history in which the single-literal pattern L has been added and afterwards only patterns that start with a parser, single-literal patterns different from L, or patterns whose first literal is not a prefix of L were added, parse(L) returns that literal pattern with no values, whatever parsers could also match L.", "quantifier": "all histories of ASCII patterns, all ASCII literals", "why_tests_cant": "Needs an invariant across all later insertions.", "anchors": ["src/matcher/trie/node/mod.rs::parse", "src/matcher/trie/node/mod.rs::search"]}
{"id": "C22", "title": "Parser alternatives are tried in insertion order and the parser stack is unwound on failure", "statement": "For patterns that start with pairwise different parsers, parse(text) returns the result of the first pattern in insertion order that alone matches text.", "quantifier": "all such families, all texts", "why_tests_cant": "Quantifies over all families and failure depths.", "anchors": ["src/matcher/trie/node/mod.rs::parse_with_parsers", "src/matcher/trie/node/mod.rs::insert_parser"]}
{"id": "C23", "title": "Empty matcher and empty patterns match nothing", "statement": "A new matcher returns None for every text; adding a pattern without tokens leaves a matcher unchanged.", "quantifier": "all texts, all reachable matchers", "why_tests_cant": "The claim ranges over infinitely many strings/pattern sets; tests only sample a few literals.", "anchors": ["src/matcher/trie/node/mod.rs::insert", "src/matcher/suffix_array/impls.rs::insert"]}
{"id": "C24", "title": "Re-adding a pattern replaces the earlier one", "statement": "Adding a pattern p and then a pattern q with the same token sequence leaves the trie exactly as adding only q would.", "quantifier": "all reachable tries (if a literal is not ASCII: whenever the additions do not panic, and they do if it begins with a character outside ASCII), all token sequences", "why_tests_cant": "A state equality over all reachable tries.", "anchors": ["src/matcher/trie/node/interface.rs::Entry::insert", "src/matcher/trie/node/mod.rs::insert_literal", "src/matcher/trie/node/mod.rs::insert_parser"]}
{"id": "C25", "title": "Suffix-array matcher answers every stored literal text with the last pattern stored for it", "statement": "For every history of single-literal patterns and every literal L in it, parse(L) returns the last added pattern with literal L.", "quantifier": "all histories of literal patterns (any UTF-8)", "why_tests_cant": "Refinement over all histories.", "anchors": ["src/matcher/suffix_array/impls.rs::insert_literal", "src/matcher/suffix_array/impls.rs::parse"]}
{"id": "C26", "title": "Suffix-array matcher never panics", "statement": "For every history of patterns with valid UTF-8 literals and ASCII SET arguments and every valid UTF-8 text, add_pattern and parse return normally.", "quantifier": "all histories, all valid UTF-8 texts", "why_tests_cant": "Slicing at the common prefix is safe only because it is a char boundary of the text for every literal.", "anchors": ["src/matcher/suffix_array/impls.rs::parse", "src/matcher/suffix_array/impls.rs::longest_common_prefix"]}
{"id": "C27", "title": "longest_common_prefix returns an entry with the longest common prefix", "statement": "On every reachable suffix table, longest_common_prefix(text) is None iff there is no literal entry, and otherwise an entry whose common prefix length with text is maximal among all literal entries of that table.", "quantifier": "all histories, all valid UTF-8 texts", "why_tests_cant": "Correctness of looking only at the two neighbours of the insertion point is a property of the sort order for all strings.", "anchors": ["src/matcher/suffix_array/impls.rs::longest_common_prefix", "src/matcher/suffix_array/impls.rs::longest_common_prefix_around_pos", "src/matcher/suffix_array/impls.rs::longest_common_prefix_between_consecutive_entries"]}
{"id": "C28", "title": "Suffix-array matcher is sound", "statement": "If SuffixTable::parse(text) returns a result then its pattern was added and its token sequence matches the whole text.", "quantifier": "all histories, all texts", "why_tests_cant": "As C11.", "anchors": ["src/matcher/suffix_array/impls.rs::parse"]}
{"id": "C29", "title": "A suffix-array matcher holding one pattern matches every text of that pattern", "statement": "For a grammar-shaped pattern, a suffix table containing only this pattern returns the pattern with its captures on every text its tokens match (the text not ending right after a literal with tokens following). Exactly, for every pattern with UTF-8 literals and any sets: it panics if and only if a value ends inside a character, and otherwise answers exactly the texts that match loosely (a literal that is the last token accepts every beginning of itself, any other one takes what it has in common with the text).", "quantifier": "all grammar-shaped patterns, all valid UTF-8 texts", "why_tests_cant": "The claim ranges over infinitely many strings/pattern sets; tests only sample a few literals.", "anchors": ["src/matcher/suffix_array/impls.rs::insert", "src/matcher/suffix_array/impls.rs::parse"]}
{"id": "C30", "title": "Both matcher implementations give the same answer", "statement": "For the same history of patterns, the trie and the suffix-array matcher return the same result for every text.", "quantifier": "all histories, all texts", "why_tests_cant": "Equivalence of two implementations over all inputs.", "anchors": ["src/matcher/trie/node/mod.rs", "src/matcher/suffix_array/impls.rs"]}
{"id": "C31", "title": "In the suffix-array matcher a parser-led pattern stays reachable next to literal-led ones", "statement": "A pattern that starts with a parser is matched on every text it alone matches and that no literal-led pattern matches, also when literal-led patterns were added.", "quantifier": "all histories, all texts", "why_tests_cant": "Depends on the combination of patterns.", "anchors": ["src/matcher/suffix_array/impls.rs::parse", "src/matcher/suffix_array/impls.rs::parse_with_parsers"]}
{"id": "C32", "title": "Compiling a pattern string never panics and always terminates", "statement": "grammar::parser::pattern(s) returns Ok or Err for every string s.", "quantifier": "all valid UTF-8 strings", "why_tests_cant": "Panic needs a specific numeric argument; termination of PEG loops is universal.", "anchors": ["src/grammar/parser/pattern_parser.rs::pattern", "src/grammar/parser/pattern_parser.rs::parse_int", "src/grammar/parser/pattern_parser.rs::any_char"]}
{"id": "C33", "title": "Pattern strings round-trip", "statement": "Writing out a well-formed token list in the documented syntax (%{SET(\"..\",min_len=..,max_len=..):name}, %{INT(..):name}, %{GREEDY:name}, literals with %{ escaped) and compiling it gives back exactly that token list.", "quantifier": "all well-formed token lists", "why_tests_cant": "The claim ranges over infinitely many strings/pattern sets; tests only sample a few literals.", "anchors": ["src/grammar/parser/pattern_parser.rs", "src/grammar/parser/pattern.rustpeg", "src/matcher/trie/parser_factory.rs", "src/grammar/mod.rs::unescape_literal"]}
{"id": "C34", "title": "Shape of compiled patterns", "statement": "Every successfully compiled pattern is non-empty, contains no empty literal and no two adjacent literals, and a GREEDY parser has end string e iff the next token is the literal e (and no end string iff it is last or followed by a parser).", "quantifier": "all strings that compile", "why_tests_cant": "The claim ranges over infinitely many strings/pattern sets; tests only sample a few literals.", "anchors": ["src/grammar/parser/pattern_parser.rs::parse_pattern", "src/grammar/parser/pattern_parser.rs::parse_parser_GREEDY", "src/grammar/parser/pattern_parser.rs::parse_literal"]}
{"id": "C35", "title": "Accepted parser names", "statement": "README: the characters _ . [0-9] - [a-zA-Z] can be used in parser names: a non-empty name over these characters starting with a letter, _ or . is accepted.", "quantifier": "all names", "why_tests_cant": "The claim ranges over infinitely many strings/pattern sets; tests only sample a few literals.", "anchors": ["README.md", "src/grammar/parser/pattern_parser.rs::parse_identifier"]}
{"id": "C36", "title": "Escaped parser beginnings denote literal text", "statement": "In a pattern string every \\%\\{ in a literal part stands for the text %{ in the compiled literal.", "quantifier": "all pattern strings", "why_tests_cant": "The claim ranges over infinitely many strings/pattern sets; tests only sample a few literals.", "anchors": ["src/grammar/mod.rs::unescape_literal", "src/grammar/parser/pattern_parser.rs::parse_piece_literal", "src/grammar/parser/pattern_parser.rs::parse_parser_GREEDY"]}
{"id": "C37", "title": "Reported error positions lie inside the input", "statement": "When compilation fails, offset <= input length, offset is a char boundary, and line/column are >= 1; for inputs without carriage return, offset equals the length of the first line-1 lines (with their newlines) plus column-1.", "quantifier": "all strings that do not compile", "why_tests_cant": "The claim ranges over infinitely many strings/pattern sets; tests only sample a few literals.", "anchors": ["src/grammar/parser/pattern_parser.rs::pos_to_line", "src/grammar/parser/pattern_parser.rs::mark_failure", "src/grammar/parser/pattern_parser.rs::pattern"]}
{"id": "C38", "title": "Length options are applied as written, the last one winning", "statement": "For a SET or INT with any list of min_len/max_len options the compiled parser has the last given min_len (or none) and the last given max_len (or none).", "quantifier": "all option lists", "why_tests_cant": "The claim ranges over infinitely many strings/pattern sets; tests only sample a few literals.", "anchors": ["src/matcher/trie/parser_factory.rs::set_optional_params", "src/grammar/parser/pattern_parser.rs::parse_parser_BASE_optional_param"]}
{"id": "C39", "title": "A string without parser syntax compiles to one literal", "statement": "Every non-empty string without %{ compiles to exactly one literal, the string with \\%\\{ replaced by %{; the empty string does not compile.", "quantifier": "all strings without %{", "why_tests_cant": "The claim ranges over infinitely many strings/pattern sets; tests only sample a few literals.", "anchors": ["src/grammar/parser/pattern_parser.rs::parse_literal", "src/grammar/mod.rs::unescape_literal"]}
{"id": "C40", "title": "Successful from_source adds all patterns in order and has tested every message", "statement": "If from_source returns a matcher, the source delivered no error, the matcher equals the one obtained by adding all delivered patterns in order, and each test message, when checked right after its pattern was added, was matched by a pattern with that uuid and satisfied its expectations.", "quantifier": "all sources", "why_tests_cant": "Quantifies over all sequences of patterns.", "anchors": ["src/matcher/pattern_source/mod.rs::from_source", "src/matcher/pattern_source/mod.rs::check_pattern"]}
{"id": "C41", "title": "from_source stops at the first problem and reports it", "statement": "If from_source fails, the error is the one of the first item (in source order) that is an error or whose test messages fail in the matcher built so far, and later items are not looked at.", "quantifier": "all sources", "why_tests_cant": "As C40.", "anchors": ["src/matcher/pattern_source/mod.rs::from_source", "src/matcher/pattern_source/mod.rs::check_test_messages"]}
{"id": "C42", "title": "from_source_ignore_errors keeps every deliverable pattern", "statement": "from_source_ignore_errors returns the matcher obtained by adding all non-error items in order, regardless of test message failures; it equals from_source's matcher whenever that succeeds. It panics exactly if adding one of the patterns, or a check of one of its test messages that is reached, panics.", "quantifier": "all sources", "why_tests_cant": "As C40.", "anchors": ["src/matcher/pattern_source/mod.rs::from_source_ignore_errors"]}
{"id": "C43", "title": "Validated test messages still match their pattern in the finished matcher", "statement": "If from_source returns Ok(matcher), every test message of every pattern is matched by the finished matcher with its own pattern.", "quantifier": "all sources", "why_tests_cant": "A later pattern may steal or delete earlier ones.", "anchors": ["src/matcher/pattern_source/mod.rs::from_source", "src/matcher/trie/node/interface.rs::Entry::insert"]}
{"id": "C44", "title": "Test message verdict", "statement": "A test message accepts a match result iff all expected tags are among the pattern's tags (an expected tag list requires the pattern to have one) and every expected key/value pair is in the pattern's values overridden by the extracted values; the error names the first violated check.", "quantifier": "all test messages and match results", "why_tests_cant": "The claim ranges over infinitely many strings/pattern sets; tests only sample a few literals.", "anchors": ["src/matcher/pattern/testmessage/message.rs::test_result", "src/matcher/pattern/testmessage/message.rs::merge_values"]}
{"id": "C45", "title": "Pattern files are loaded last pattern first", "statement": "Iterating a pattern file delivers exactly its patterns, each once, in reverse file order; test messages of a pattern are likewise checked last first.", "quantifier": "all pattern files", "why_tests_cant": "Order over lists of any length.", "anchors": ["src/matcher/pattern/file/iter.rs::next", "src/matcher/pattern_source/mod.rs::extract_test_messages"]}
{"id": "C46", "title": "File type is chosen by extension", "statement": "load_file reads JSON iff the path's extension is json, YAML iff it is yaml, yml, YAML or YML, and otherwise fails with UnsupportedFileExtension without touching the file; an unopenable file gives Io.", "quantifier": "all paths and file systems", "why_tests_cant": "The claim ranges over infinitely many strings/pattern sets; tests only sample a few literals.", "anchors": ["src/matcher/pattern_loader.rs::load_file"]}
{"id": "C47", "title": "Pattern deserialization accepts exactly the documented objects", "statement": "A pattern object deserializes iff every key is one of name, uuid, pattern, values, tags, test_messages, every value has the right type, uuid and pattern are present and the pattern string compiles; the result carries the last given value of each key; any other document is refused, and the error is that of the first thing that is wrong with it.", "quantifier": "all documents", "why_tests_cant": "The claim ranges over infinitely many strings/pattern sets; tests only sample a few literals.", "anchors": ["src/matcher/pattern/deser.rs", "src/matcher/pattern/testmessage/deser.rs", "src/matcher/pattern/file/deser.rs"]}
{"id": "C48", "title": "A missing uuid is reported as such", "statement": "Deserializing a pattern object with a pattern but without uuid fails with a missing-field error naming uuid.", "quantifier": "all documents", "why_tests_cant": "The claim ranges over infinitely many strings/pattern sets; tests only sample a few literals.", "anchors": ["src/matcher/pattern/deser.rs"]}
{"id": "C49", "title": "Parsers are merged iff they are identical", "statement": "The byte stream hashed for a parser determines its kind, name, character set, limits and end string, so two parsers get different streams unless they are equal. So, unless SipHash maps two different byte streams to the same value, both matchers keep exactly one node for each of the different parsers the patterns start with: equal parsers share a node, different parsers never do.", "quantifier": "all pairs of parsers", "why_tests_cant": "The claim ranges over infinitely many strings/pattern sets; tests only sample a few literals.", "anchors": ["src/parsers/set.rs::hash_os", "src/parsers/int.rs::hash_os", "src/parsers/greedy.rs::hash_os", "src/matcher/trie/node/mod.rs::lookup_parser"]}
{"id": "C50", "title": "A cloned matcher is equal and independent", "statement": "boxed_clone of a matcher answers every text like the original, and adding patterns to the clone does not change the original.", "quantifier": "all reachable matchers, all texts", "why_tests_cant": "Deep copy over arbitrary trees.", "anchors": ["src/matcher/trie/matcher.rs::boxed_clone", "src/matcher/trie/node/parser.rs::clone", "src/matcher/suffix_array/impls.rs::clone"]}
{"id": "C51", "title": "The reported pattern carries the metadata of the added one", "statement": "The pattern of a match result has the uuid, name, values and tags of the pattern as added (its token list having been consumed).", "quantifier": "all histories, all texts", "why_tests_cant": "As C11.", "anchors": ["src/matcher/trie/node/mod.rs::insert", "src/matcher/pattern/pattern.rs::pop_first_token", "src/matcher/result.rs::pattern"]}
{"id": "C52", "title": "Compile, add, parse end to end", "statement": "For every pattern string that compiles to ASCII tokens, the trie with this single pattern matches exactly the texts described by the pattern string's tokens. For pattern strings and texts in any script it panics if and only if a value ends inside a character, or a literal is compared with text and one of them begins with a character outside ASCII; otherwise the same holds.", "quantifier": "all pattern strings, all texts", "why_tests_cant": "The claim ranges over infinitely many strings/pattern sets; tests only sample a few literals.", "anchors": ["src/grammar/parser/pattern_parser.rs", "src/matcher/trie/node/mod.rs"]}
{"id": "C53", "title": "A trailing GREEDY takes the remaining message even if it is empty", "statement": "README: a GREEDY that is the last parser consumes the whole remaining message: literal L followed by %{GREEDY:x} matches L ++ r with x = r for every r.", "quantifier": "all literals and remainders", "why_tests_cant": "The claim ranges over infinitely many strings/pattern sets; tests only sample a few literals.", "anchors": ["README.md", "src/matcher/trie/node/mod.rs::parse", "src/matcher/suffix_array/impls.rs::parse"]}
{"id": "C54", "title": "GREEDY directly followed by a length-checked parser never matches", "statement": "A pattern in which a GREEDY without end string is directly followed by a SET or INT parser matches no text in the trie.", "quantifier": "all such patterns, all texts", "why_tests_cant": "The claim ranges over infinitely many strings/pattern sets; tests only sample a few literals.", "anchors": ["src/parsers/greedy.rs::parse", "src/matcher/trie/node/parser.rs::parse"]}
{"id": "C55", "title": "The text before a reported error can be completed", "statement": "When a string does not compile, the text before the reported offset can be completed to a string that compiles.", "quantifier": "all strings that do not compile", "why_tests_cant": "The claim ranges over infinitely many strings; tests only sample a few of them.", "anchors": ["src/grammar/parser/pattern_parser.rs::mark_failure", "src/grammar/parser/pattern_parser.rs::pattern"]}
{"id": "C56", "title": "Errors are not reported inside a correct beginning", "statement": "If the text before some %{ compiles (or is empty) and the whole string does not compile, the reported offset is behind this %{.", "quantifier": "all strings that do not compile, all their beginnings that do", "why_tests_cant": "The claim ranges over infinitely many strings; tests only sample a few of them.", "anchors": ["src/grammar/parser/pattern_parser.rs::mark_failure", "src/grammar/parser/pattern_parser.rs::pattern"]}
{"id": "C57", "title": "Concatenating pattern strings", "statement": "If two strings compile, their concatenation compiles to the concatenated tokens, provided the first ends in a SET or INT or the second starts with a parser.", "quantifier": "all pairs of pattern strings", "why_tests_cant": "The claim ranges over infinitely many strings; tests only sample a few of them.", "anchors": ["src/grammar/parser/pattern_parser.rs::pattern"]}
{"id": "C58", "title": "The accepted language is the documented one", "statement": "A string compiles to given tokens iff it is a sequence of literals, %{INT..}, %{SET(..)..} and %{GREEDY..} elements, as documented, that stands for these tokens.", "quantifier": "all strings, all token lists", "why_tests_cant": "The claim ranges over infinitely many strings; tests only sample a few of them.", "anchors": ["src/grammar/parser/pattern.rustpeg", "src/grammar/parser/pattern_parser.rs::pattern", "README.md"]}
{"id": "C59", "title": "No 'not UTF-8 file name' error", "statement": "Loading a file never fails with NotUtf8FileName: paths are given as strings, so the extension of every path is valid UTF-8.", "quantifier": "all paths and file systems", "why_tests_cant": "Ranges over all paths.", "anchors": ["src/matcher/pattern_loader.rs::load_file", "src/matcher/pattern_source/error.rs::BuildError"]}
{"id": "C60", "title": "from_file builds the matcher from the file's patterns, last one first", "statement": "from_file returns a matcher iff the file can be loaded and the patterns of the file, taken in reverse file order, can be added one after the other such that all test messages of each pattern pass right after it was added; the matcher is the one built that way.", "quantifier": "all paths, file systems, document contents and matcher types", "why_tests_cant": "The claim ranges over all files.", "anchors": ["src/matcher/pattern_loader.rs::from_file", "src/matcher/pattern/file/iter.rs::next"]}
{"id": "C61", "title": "from_file_ignore_errors fails only if the file cannot be loaded and agrees with from_file", "statement": "from_file_ignore_errors returns an error iff load_file does, and then from_file returns the same error; otherwise it returns the matcher built from all patterns of the file, which is from_file's matcher whenever from_file succeeds.", "quantifier": "all paths, file systems, document contents and matcher types", "why_tests_cant": "The claim ranges over all files.", "anchors": ["src/matcher/pattern_loader.rs::from_file_ignore_errors"]}
{"id": "C62", "title": "Test message deserialization accepts exactly the documented objects", "statement": "A document is accepted as a test message iff it is an object whose keys are among message, values and tags, whose values are a string, a string map and a string list, and which has a message; the result carries the last given value of each key, with no values and no tags by default; any other document is refused, and the error is that of the first thing that is wrong with it.", "quantifier": "all documents", "why_tests_cant": "The claim ranges over all documents.", "anchors": ["src/matcher/pattern/testmessage/deser.rs"]}
{"id": "C63", "title": "Pattern file deserialization accepts exactly the documented objects", "statement": "A document is accepted as a pattern file iff it is an object whose only key is patterns, with a list of pattern objects; the result has these patterns in the same order; any other document is refused, and the error is that of the first thing that is wrong with it.", "quantifier": "all documents", "why_tests_cant": "The claim ranges over all documents.", "anchors": ["src/matcher/pattern/file/deser.rs"]}
{"id": "C64", "title": "Unreadable file contents are reported as an I/O error", "statement": "If a pattern file can be opened but its contents cannot be read as text, load_file fails with an I/O error.", "quantifier": "all files", "why_tests_cant": "The claim ranges over all file contents.", "anchors": ["src/matcher/pattern_loader.rs::read"]}
{"id": "C65", "title": "The trie's answers for every history follow from a flat table of leading literals", "statement": "For every history of add_pattern calls with patterns of the shape the grammar produces, parse(text) is determined by a table computed from the history: one row per leading literal with the last literal-only pattern and the last surviving continuing pattern, and the parser-led patterns in order of first use. A text that is a row's literal is answered by the row's literal-only pattern or not at all. Any other text is decided by the longest stop point it begins with (a literal after which a pattern continues, or the point where two literals part): the continuing pattern alone is tried there, none at a bare parting point, and the parser-led patterns in order if the only stop point is the empty text. This description has exactly one answer for every history and text.", "quantifier": "all histories of patterns (overlapping literals, repeated literals and parsers, any order), all texts", "why_tests_cant": "The answer depends on the whole history: literals split each other, later additions remove or hide earlier ones; tests cover a handful of histories", "anchors": ["src/matcher/trie/node/mod.rs: SuffixTree::insert, insert_literal, insert_parser, parse", "src/matcher/trie/node/literal.rs: LiteralNode::split", "src/matcher/trie/node/parser.rs: ParserNode", "src/matcher/trie/node/interface.rs: Entry::insert"]}
{"id": "C66", "title": "Exactly which texts make the trie matcher panic", "statement": "For every history of add_pattern calls with UTF-8 literals and any parsers that did not panic itself (C96), parse of a UTF-8 text panics in exactly these cases, and otherwise answers as in C65: the text begins with a stop point and goes on, leading literals go on after it too, and the text or one of these literals goes on with a non-ASCII character; or no leading literal equals the text and one of the patterns asked after the longest stop point the text begins with (in order, before any matches) compares a literal with a text and one of the two begins with a non-ASCII character, or has a parser whose value would end inside a character. In particular, once a pattern that begins with a literal was added, every text that begins with a non-ASCII character panics; while a pattern that begins with a non-ASCII character is in, every non-empty text panics; patterns without literals and with ASCII SETs never panic.", "quantifier": "all histories of patterns with UTF-8 literals, all UTF-8 texts", "why_tests_cant": "Whether a panic is reached depends on the shape the whole history gave the trie and on where in the text the first non-ASCII character meets a comparison; the tests use ASCII texts only", "anchors": ["src/matcher/trie/node/literal.rs: LiteralNode::cmp_str", "src/matcher/trie/node/mod.rs: SuffixTree::search, lookup_literal, parse, parse_with_parsers", "src/utils/sortedvec.rs: binary_search_by", "src/parsers/set.rs: SetParser::parse"]}
{"id": "C67", "title": "The expected set of a compilation error lists only what is absent", "statement": "Every compilation error of a pattern string has a non-empty expected set without repetitions; each entry is one of the documented texts or character classes, and at the reported offset the string does not continue with any of them.", "quantifier": "all pattern strings that do not compile", "why_tests_cant": "The set is accumulated by every rule that fails anywhere in the string; tests look at a handful of errors and only at line and column", "anchors": ["src/grammar/parser/pattern_parser.rs: ParseError, ParseState::mark_failure, slice_eq, pattern"]}
{"id": "C68", "title": "The expected set says what can come next", "statement": "For every entry of the expected set of a compilation error, the text before the reported offset can be continued, with something that begins with the entry, to a string that compiles; and every text that can follow begins with one of the entries.", "quantifier": "all pattern strings that do not compile, all entries, all continuations", "why_tests_cant": "Ranges over all strings and all continuations", "anchors": ["src/grammar/parser/pattern_parser.rs: ParseError, ParseState::mark_failure, parse_IDENTIFIER, parse_INT, parse_SET"]}
{"id": "C69", "title": "from_json accepts exactly the documented pattern objects", "statement": "Pattern::from_json returns Ok(p) iff the text is a JSON document that describes the pattern p (C47); a text that is not JSON gives the error of the JSON library, any other text the error of the first thing that is wrong; it panics exactly if nothing else is wrong and the pattern string makes the compiler panic.", "quantifier": "all texts and documents", "why_tests_cant": "Ranges over all documents", "anchors": ["src/matcher/pattern/pattern.rs: Pattern::from_json", "src/matcher/pattern/deser.rs"]}
{"id": "C70", "title": "The message of a compilation error is unambiguous", "statement": "The displayed message of a compilation error names at least one expected entry (it never says that the end of the input was expected), and whatever the iteration order of the expected set, two errors with the same message have the same line, column and expected set. Every entry is displayed the way its characters are written in a Rust string, and can be told from it.", "quantifier": "all pairs of pattern strings that do not compile, all iteration orders of the set", "why_tests_cant": "Hash set order varies from run to run; the claim is about all pairs of errors", "anchors": ["src/grammar/parser/pattern_parser.rs: impl Display for ParseError, escape_default"]}
{"id": "C71", "title": "The message of a test message error is unambiguous", "statement": "Two test message errors with the same displayed message are equal; in particular the message tells the kind of the error and the uuid of the pattern.", "quantifier": "all pairs of test message errors with any keys, values, messages and uuids", "why_tests_cant": "Ranges over all pairs of errors", "anchors": ["src/matcher/pattern/testmessage/error.rs: Error, impl Display for Error"]}
{"id": "C72", "title": "The pattern builder yields the tokens in the order of the calls", "statement": "After any sequence of literal and parser calls on a new CompiledPatternBuilder, build returns exactly these tokens in the order of the calls, and can be called repeatedly.", "quantifier": "all sequences of calls", "why_tests_cant": "Ranges over all sequences of calls", "anchors": ["src/matcher/compiled_pattern.rs: CompiledPatternBuilder"]}
{"id": "C73", "title": "The answers of the suffix-array matcher for every history", "statement": "After any history of additions, the suffix array answers a text as follows. If no pattern begins with a literal, the first pattern (in the order of first insertion of its leading parser) that matches is the answer. Otherwise one leading literal is chosen: the text itself if it is one, else the one with the longest common prefix with the text, ties going to the last one before the text and then to the first one after it. If the text is a beginning of it, the last added pattern consisting of this literal alone is the answer; otherwise the last added pattern continuing after this literal decides, its literals possibly cut short. Nothing else is ever tried. This description has exactly one answer for every history and text.", "quantifier": "all histories of patterns with UTF-8 literals and any parsers, all UTF-8 texts on which parse does not panic", "why_tests_cant": "Ranges over all histories of additions and all texts, including all ways in which leading literals can be related", "anchors": ["src/matcher/suffix_array/impls.rs: SuffixTable", "src/matcher/suffix_array/impls.rs: LiteralE", "src/matcher/suffix_array/impls.rs: ParserE"]}
{"id": "C74", "title": "Exactly when the suffix-array matcher panics", "statement": "Parsing a text with the suffix-array matcher panics exactly if one of the patterns asked according to C73 has a parser whose value would end inside a character; on ASCII texts it never panics, whatever the patterns.", "quantifier": "all histories of patterns with UTF-8 literals and any parsers, all UTF-8 texts", "why_tests_cant": "An equivalence over all histories and texts", "anchors": ["src/matcher/suffix_array/impls.rs: SuffixTable::parse", "src/parsers/set.rs: SetParser::parse"]}
{"id": "C75", "title": "The answers of the trie for patterns that do not disturb each other", "statement": "Take a list of patterns such that a later pattern with the same leading literal as an earlier one is the bare literal where the other has more tokens (or vice versa), no later pattern with more tokens begins with a proper beginning of an earlier leading literal, and no two patterns begin with the same parser. Then every pattern stays in the matcher, and a text is answered as follows: a text that is a leading literal gets the bare literal pattern or no match; otherwise the longest stop (empty text, a leading literal after which a pattern goes on, or a point where two leading literals part) that the text begins with decides: empty asks the parser-led patterns in order, a continuing pattern is the only one asked, a parting point means no match. Parsing panics exactly if the text goes on, after a stop it begins with and leading literals go on after, with a character outside ASCII or past such a literal, or if a pattern asked at the longest stop runs into trouble.", "quantifier": "all such lists of patterns with UTF-8 nonempty literals that could be added, all UTF-8 texts (for patterns compiled from ASCII strings and ASCII texts there is always an answer)", "why_tests_cant": "Ranges over all lists of patterns and all texts", "anchors": ["src/matcher/trie/node/mod.rs: SuffixTree", "src/matcher/trie/matcher.rs: Matcher for SuffixTree"]}
{"id": "C76", "title": "In such lists the order matters only between parser-led patterns, and matches are found", "statement": "For lists of patterns as in C75: any two orders that both qualify and keep the parser-led patterns in the same order give matchers with the same answers and the same panics, if both can be added (which depends on the order); a text that a literal-led pattern matches is answered with it and its values unless another stop lies deeper in the text; a text beginning with no nonempty stop is answered by the first matching parser-led pattern.", "quantifier": "all pairs of such lists with UTF-8 literals that could be added, all UTF-8 texts (ASCII literals can always be added)", "why_tests_cant": "Ranges over all permutations of all lists of patterns and all texts", "anchors": ["src/matcher/trie/node/mod.rs: SuffixTree", "src/matcher/trie/matcher.rs: Matcher for SuffixTree"]}
{"id": "C77", "title": "From a pattern file to the answers", "statement": "If a matcher was loaded from a file, strictly or ignoring errors, its answers are those determined (C65 for the trie, C73 for the suffix array) by the patterns of the file added in reverse order.", "quantifier": "all file systems, JSON and YAML libraries delivering UTF-8 strings, paths, texts", "why_tests_cant": "Ranges over all files and all texts", "anchors": ["src/matcher/pattern_loader.rs: PatternLoader", "src/matcher/pattern_source/mod.rs: from_source"]}
{"id": "C78", "title": "When loading a file panics", "statement": "Reading a file panics exactly if nothing is wrong in the document up to a pattern string whose compilation panics. For patterns and test messages in any script, loading the file into a trie panics exactly if some pattern cannot be added after the ones before it (C96) or one of its test messages, the ones checked before it passing, cannot be parsed (C66); from_file additionally gets that far only if all patterns before it pass their test messages, and otherwise returns a matcher or an error. Loading it into a suffix array panics exactly if one of the test messages of some pattern, the ones checked before it passing, cannot be parsed (C74); from_file again only if it gets that far. A file of ASCII pattern strings with ASCII test messages never panics, and for the suffix array the pattern strings can be in any script.", "quantifier": "all file systems, libraries, paths and documents", "why_tests_cant": "Ranges over all documents", "anchors": ["src/matcher/pattern_loader.rs: PatternLoader", "src/matcher/pattern/file/deser.rs: FileVisitor", "src/matcher/pattern/deser.rs: PatternVisitor"]}
{"id": "C79", "title": "How adding a pattern can change an answer of the trie", "statement": "Adding a pattern that begins with a literal leaves the answer for a text as it is, makes it \"no match\", or makes it the match of the new pattern; it never becomes the match of another pattern. A text that does not begin with the literal keeps its answer, unless it begins with a point where the literal parts from an older leading literal, in which case it can only become \"no match\". Adding a pattern that begins with a parser leaves the answer as it is, unless it becomes the match of the new pattern or was the match of an older pattern beginning with the same parser. A match is never changed by adding a pattern that begins with a parser no older pattern begins with. Any number of additions together obey the first rule if no added pattern begins with a parser that a pattern before it begins with.", "quantifier": "all lists of patterns compiled from UTF-8 strings with no hash collision, all added patterns, all UTF-8 texts on which parse does not panic before and after", "why_tests_cant": "Ranges over all histories, additions and texts", "anchors": ["src/matcher/trie/node/mod.rs: Node::insert", "src/matcher/trie/node/mod.rs: Node::parse", "src/matcher/trie/node/literal.rs: LiteralNode"]}
{"id": "C80", "title": "When the two matchers agree", "statement": "In an undisturbed list of patterns, if a text matches a pattern that begins with a literal and every other leading literal has less in common with the text than that literal, the trie and the suffix array give the same answer: this pattern with its values. On texts in other scripts each of them gives this answer or panics; on ASCII they do not panic.", "quantifier": "all undisturbed lists of patterns compiled from UTF-8 strings with no hash collision, all UTF-8 texts", "why_tests_cant": "Ranges over all lists and texts and compares two different matchers", "anchors": ["src/matcher/trie/node/mod.rs: Node::parse", "src/matcher/suffix_array/impls.rs: SuffixTable"]}
{"id": "C81", "title": "What becomes of a validated test message", "statement": "After a successful load into a trie, a test message that passed when it was checked is, in the finished matcher, still answered correctly, or not matched, or answered by a pattern added later (for files: standing earlier in the file) that the text does match; it is never answered by any other pattern. It still passes if no leading literal of a later pattern begins the message or parts inside it from another leading literal. (On texts in other scripts parse may also panic; on ASCII it does not.)", "quantifier": "all lists of patterns compiled from UTF-8 strings with different leading parsers and no hash collision, all UTF-8 test messages, all files", "why_tests_cant": "Ranges over all pattern lists, files and messages", "anchors": ["src/matcher/pattern_source/mod.rs: from_source", "src/matcher/pattern_loader.rs: PatternLoader", "src/matcher/trie/node/mod.rs: Node::insert"]}
{"id": "C82", "title": "A failed load names the pattern", "statement": "If loading fails because of a test message, the displayed error contains the uuid of the pattern at which loading stopped, which is a pattern of the source or file. from_file fails exactly if the file cannot be loaded or some pattern of it has a test message that does not pass while all the patterns behind it in the file are all right.", "quantifier": "all pattern sources, files, matchers and errors", "why_tests_cant": "Ranges over all sources, files and failing positions", "anchors": ["src/matcher/pattern_source/error.rs: impl fmt::Display for BuildError", "src/matcher/pattern/testmessage/error.rs: impl fmt::Display for Error", "src/matcher/pattern_loader.rs: PatternLoader::from_file"]}
{"id": "C83", "title": "Line and column of a compilation error", "statement": "The line and column of a compilation error are the line and column of its offset in the pattern string. This is false for strings with \\r\\n line ends, where the reported line drifts; the line and column are exactly those of the offset counted in the text with normalised line ends, and the property holds for strings without \\r\\n and without a carriage return at the end.", "quantifier": "all pattern strings that do not compile", "why_tests_cant": "Ranges over all strings", "anchors": ["src/grammar/parser/pattern_parser.rs: pos_to_line"]}
{"id": "C84", "title": "The last setting of a parser counts", "statement": "A SET, INT or GREEDY parser that was created and then configured by any sequence of calls (name, character set, minimum and maximum length, end string) parses according to the last argument given for each setting, whatever the order of the calls and however often a setting was changed; the name has no influence on what is matched.", "quantifier": "all sequences of setter calls, all texts", "why_tests_cant": "Ranges over all histories of calls and all texts", "anchors": ["src/parsers/set.rs: SetParser", "src/parsers/int.rs: IntParser", "src/parsers/greedy.rs: GreedyParser"]}
{"id": "C85", "title": "Bounded work per message", "statement": "While a text is parsed, each parser is called at most as often as it occurs in the added patterns, so the number of parser calls is at most the number of parser tokens of all the patterns, whatever the text is; every call is given an end part of the text. This holds for both matchers.", "quantifier": "all lists of added patterns, all texts", "why_tests_cant": "A bound on the work for every pattern list and every text", "anchors": ["src/matcher/trie/node/mod.rs: SuffixTree::parse, parse_with_parsers", "src/matcher/trie/node/parser.rs: ParserNode::parse", "src/matcher/suffix_array/impls.rs: SuffixTable::parse, ParserE"]}
{"id": "C86", "title": "The checked-in parser implements the grammar file", "statement": "The generated parser that is checked in does what the grammar file says when it is read as a parsing expression grammar: for every string the grammar file has exactly one outcome, a string compiles to given tokens exactly if the grammar matches all of it with these tokens as its value, it is rejected exactly if the grammar fails or leaves something over, and compiling panics exactly if an action of the grammar does.", "quantifier": "all strings", "why_tests_cant": "Equality of two languages, with values, over all strings", "anchors": ["src/grammar/parser/pattern.rustpeg", "src/grammar/parser/pattern_parser.rs: pattern"]}
{"id": "C87", "title": "Bounded memory", "statement": "The size of a matcher is linear in the patterns added to it, however they overlap and in whatever order they come: the trie has at most two nodes for each literal and one for each parser of the patterns, the suffix array at most one entry for each of them, and in both the stored literal pieces have together no more bytes than the literals of the patterns.", "quantifier": "all lists of added patterns", "why_tests_cant": "A bound for every history of insertions; splitting nodes could multiply labels only for particular histories", "anchors": ["src/matcher/trie/node/mod.rs: SuffixTree::insert, insert_literal_tail", "src/matcher/trie/node/literal.rs: LiteralNode::split", "src/matcher/suffix_array/impls.rs: SuffixTable::insert"]}
{"id": "C88", "title": "Bounded call depth", "statement": "How deep the calls nest while a message is parsed depends neither on the length of the message nor on the number of patterns: a stack with four frames for each byte and token of the longest added pattern is enough for the trie, three for each token of the longest pattern for the suffix array. With such a stack the answer is the same as with an unbounded one. Likewise the path to a node of the trie is no longer than the longest pattern. With any smaller stack the answer is the same unless the stack is exhausted.", "quantifier": "all lists of added patterns, all messages, all stack sizes above the bound", "why_tests_cant": "Stack exhaustion can be provoked by particular long histories or messages only; the bound is for all of them", "anchors": ["src/matcher/trie/node/mod.rs: SuffixTree::parse, lookup_literal, parse_with_parsers, parse_then_push_kvpair", "src/matcher/trie/node/parser.rs: ParserNode::parse", "src/matcher/suffix_array/impls.rs: SuffixTable::parse, ParserE"]}
{"id": "C89", "title": "Converted patterns mean the same", "statement": "The script that converts a syslog-ng patterndb turns every pattern made of literal text and supported parsers with usable names into an actiondb pattern string that compiles, and compiles to exactly the parsers, end strings and literals the patterndb pattern stands for.", "quantifier": "all patterndb patterns, i.e. all lists of pieces of text and parsers with their arguments", "why_tests_cant": "Infinitely many patterns; literal text, separators and arguments interact when the pieces are joined", "anchors": ["utils/pdb2adb: _p2p, _validate_pattern", "src/grammar/parser/pattern_parser.rs: pattern"]}
{"id": "C90", "title": "Escaped at signs", "statement": "Literal text with an at sign, which patterndb writes as two at signs, is converted to that text.", "quantifier": "all texts; all surroundings", "why_tests_cant": "A statement about every text; the script splits at every at sign before it looks for escapes", "anchors": ["utils/pdb2adb: _p2p, _unescape_pattern"]}
{"id": "C91", "title": "Patterns with unsupported parsers are left out as a whole", "statement": "A patterndb pattern that uses a parser actiondb has nothing for (PCRE, IPv6, EMAIL, NLSTRING, OPTIONALSET, or any other name but those the script knows) is never converted in part: whatever text and parsers are before and after it, the conversion reports failure; a parser with a known name alone is converted.", "quantifier": "all parser names, all texts and parsers in front, all arguments, all text behind", "why_tests_cant": "The unsupported parser may be anywhere in a pattern of any length", "anchors": ["utils/pdb2adb: _p2p, _validate_pattern"]}
{"id": "C92", "title": "The converted file can be loaded and is complete", "statement": "The file the conversion script writes for a patterndb can be loaded by actiondb, whatever the order in which rules and keys are written, and contains exactly one pattern for every convertible pattern of a rule whose ruleset has a program, in order: with the meaning of that pattern (after the program, if asked for), the rule's id as uuid for the first pattern and a new one for the others, a name with a running number, the rule's tags, its values without macros, and its examples as test messages.", "quantifier": "all lists of rules with all their patterns, examples, values and tags; all orders of keys", "why_tests_cant": "Unbounded databases; each rule interacts with the counters left by the previous ones and with the deserializers", "anchors": ["utils/pdb2adb: _p2p, _test_messages", "src/matcher/pattern/file/deser.rs", "src/matcher/pattern/deser.rs", "src/matcher/pattern/testmessage/deser.rs"]}
{"id": "C93", "title": "Converted patterns can be told apart", "statement": "No two patterns of a converted file have the same name or the same uuid, provided the ids of the rules and the newly made ids are all different.", "quantifier": "all lists of rules", "why_tests_cant": "A clash may need a particular ruleset name and position", "anchors": ["utils/pdb2adb"]}
{"id": "C94", "title": "Rules keep their ids", "statement": "Every rule of which at least one pattern is converted is in the converted file under its own id.", "quantifier": "all lists of rules", "why_tests_cant": "Depends on which pattern of a rule can be converted", "anchors": ["utils/pdb2adb"]}
{"id": "C95", "title": "Matching cost does not grow with the number of literals", "statement": "While a text of length n is parsed, the trie compares a stored literal with the text at most 9\u00b7(n+1) times for the text itself and at most that often again for every parser occurring in the patterns; for patterns without parsers the bound depends on the text alone, however many patterns were added. The suffix array makes at most log2(number of patterns) + 4 comparisons plus two for every token of the patterns; if some pattern begins with a literal, two for every token of the longest pattern suffice.", "quantifier": "all lists of patterns, all texts", "why_tests_cant": "A benchmark shows the cost for some pattern sets and texts; the claim bounds it for every pattern set, including adversarial ones", "anchors": ["src/matcher/trie/node/mod.rs: lookup_literal, search, parse", "src/matcher/suffix_array/impls.rs: longest_common_prefix, parse"]}
{"id": "C96", "title": "Exactly which patterns cannot be added to the trie matcher", "statement": "For every history of add_pattern calls with UTF-8 literals, adding one more pattern panics in exactly these cases: it begins with a literal, and looking this literal up runs into a comparison with a non-ASCII character (as in C66), or after the characters it shares with the literal of an earlier pattern, which are not a stop point yet, it goes on and one of the two goes on with a non-ASCII character. In particular two patterns that begin with literals, one of which begins with a non-ASCII character, can never both be added, in any order; and a history in which at most one pattern begins with a literal never panics.", "quantifier": "all histories of patterns with UTF-8 literals, all hash functions", "why_tests_cant": "Whether an addition panics depends on the whole history and on the order of the additions; the tests add ASCII patterns only", "anchors": ["src/matcher/trie/node/mod.rs: SuffixTree::insert_literal, insert_literal_tail", "src/matcher/trie/node/literal.rs: LiteralNode::split, cmp_str", "src/utils/common_prefix.rs", "src/utils/sortedvec.rs: push, binary_search_by"]}
{"id": "C97", "title": "Bounded call depth when adding a pattern", "statement": "How deep the calls nest while a pattern is added does not depend on what was added before: a stack with two frames for each token of the pattern, one for each byte of its longest literal and four more is enough for the trie, two for each token and two more for the suffix array. With such a stack the result, or the panic, is the same as with an unbounded one. With any smaller stack it is the same unless the stack is exhausted, and a pattern is never added with fewer than two frames for each of its tokens and one more.", "quantifier": "all lists of patterns added before, all patterns, all stack sizes", "why_tests_cant": "A chain of patterns that makes the lookup recurse deeply is needed to exhaust a stack; the bound is for all histories", "anchors": ["src/matcher/trie/node/mod.rs: SuffixTree::insert, lookup_literal_mut, insert_literal, insert_literal_tail", "src/matcher/trie/node/interface.rs: Entry::insert", "src/matcher/suffix_array/impls.rs: SuffixTable::insert", "src/matcher/suffix_array/interface.rs: Entry::insert"]}
{"id": "C98", "title": "How adding a pattern can change an answer of the suffix array", "statement": "Adding a pattern that begins with a literal leaves the suffix array's answer for a text as it is, makes it \"no match\", or makes it the (loose) match of the new pattern; it never becomes the match of another pattern. Nothing at all changes for a text that has more in common with the leading literal of an older pattern. Next to a pattern that begins with a literal, adding one that begins with a parser has no effect on any text; conversely the first pattern that begins with a literal silences all those that begin with parsers. While all patterns begin with parsers, the answer stays, becomes the match of the new pattern, or was the match of an older pattern beginning with the same parser. Any number of additions together obey the first rule once some pattern begins with a literal.", "quantifier": "all lists of patterns with UTF-8 literals and no hash collision, all added patterns, all UTF-8 texts", "why_tests_cant": "Ranges over all histories, additions and texts", "anchors": ["src/matcher/suffix_array/impls.rs: SuffixTable", "src/matcher/suffix_array/impls.rs: LiteralE", "src/matcher/suffix_array/interface.rs: Entry::insert"]}
{"id": "C99", "title": "What becomes of a validated test message in a suffix array", "statement": "After a successful load into a suffix array, a test message that passed when it was checked is, in the finished matcher, still answered correctly, or not matched, or answered by a pattern added later (for files: standing earlier in the file) that the text does loosely match; it is never answered by any other pattern. It still passes, without panic, if it has more in common with a leading literal of its own pattern or one before it than with those of all later patterns.", "quantifier": "all lists of patterns with UTF-8 literals and no hash collision in which no pattern begins with the same parser as one before it unless a pattern before it begins with a literal, all UTF-8 test messages, all files", "why_tests_cant": "Ranges over all pattern lists, files and messages", "anchors": ["src/matcher/pattern_source/mod.rs: from_source", "src/matcher/pattern_loader.rs: PatternLoader", "src/matcher/suffix_array/impls.rs: SuffixTable"]}
{"id": "C100", "title": "When the order of additions matters in the suffix array", "statement": "If two lists hold the same patterns, and any two patterns whose order can matter stand in the same order in both, the suffix arrays built from them have the same outcome for every text: the same answer or a panic. The order of two patterns can matter only if they begin with the same literal and both or neither of them is this literal alone, or if both begin with a parser (unless it is the same parser and exactly one of them is the parser alone). For every such pair it does matter: if both match a text and they can be told apart, the two orders of adding them give different answers for this text.", "quantifier": "all lists of patterns with UTF-8 literals and no hash collision, all rearrangements, all UTF-8 texts; all pairs of such patterns and all UTF-8 texts both match and neither order panics on (none does on an ASCII text)", "why_tests_cant": "Ranges over all histories, all rearrangements and all texts", "anchors": ["src/matcher/suffix_array/impls.rs: SuffixTable", "src/matcher/suffix_array/interface.rs: Entry::insert"]}
{"id": "C101", "title": "Adding the same patterns again changes nothing", "statement": "Adding a whole list of patterns any number of times, one time after the other (as when the same pattern file is loaded into a matcher again), leads to the same outcome for every text as adding the list once, for both matchers. For the trie this needs literals of ASCII characters, or that the additions return; they do not if a pattern begins with a character outside ASCII, because adding it a second time panics. (Adding a single pattern again can change answers, because it then comes last.)", "quantifier": "all lists of compiled patterns without hash collisions, all numbers of repetitions, all UTF-8 texts", "why_tests_cant": "Ranges over all pattern lists, all numbers of repetitions and all texts", "anchors": ["src/matcher/trie/node/mod.rs: SuffixTree::insert", "src/matcher/suffix_array/impls.rs: SuffixTable", "src/matcher/suffix_array/interface.rs: Entry::insert"]}
{"id": "C102", "title": "The trie's answer depends only on patterns with the text's first character", "statement": "For a text that begins with an ASCII character, the trie has the same outcome as the trie built from only those of its patterns that begin with a parser or with a literal with this first character: all others can be added or left out, anywhere in the history, without any effect on this text. For literals in any script and texts with any first byte the same holds whenever adding all the patterns and looking up the text does not panic. (Of the suffix array this is not true: there are patterns and texts for which leaving out such patterns changes the answer.)", "quantifier": "all lists of patterns with non-empty ASCII literals as compiled and no hash collision, all UTF-8 texts that begin with an ASCII character; and all lists of patterns with non-empty UTF-8 literals as compiled and no hash collision and all UTF-8 texts for which building and looking up does not panic", "why_tests_cant": "Ranges over all histories and all texts", "anchors": ["src/matcher/trie/node/mod.rs: SuffixTree::insert", "src/matcher/trie/node/mod.rs: SuffixTree::parse"]}
{"id": "C103", "title": "What the conversion script reads from a patterndb", "statement": "The conversion script reads every patterndb (a version-4 style XML tree of rulesets, rules, patterns, examples with test values, tags, values, descriptions and actions) without an error. Afterwards it knows exactly one rule for each id: with all patterns, examples, tags and values of the rules with this id, in the order of the file (of values with the same name the last one), and with the ruleset of the last such rule. If an example has several test messages or several lists of test values, the last of each counts, whichever stands first. It knows for each ruleset, by its name or else its id, its programs in order. It does not matter whether patterns, examples, tags and values stand in an element of their own or directly in the rule, and what is in descriptions and actions has no effect. Text between the elements has no effect. For an arbitrary XML tree, the script reads it without an exception exactly if rulesets, rules, descriptions and actions stand where they belong, every action contains a message and, unless examples are skipped, every example has a test message. In how many pieces a text comes (as with CDATA sections or comments in it) does not matter.", "quantifier": "all patterndbs: any number of rulesets, rules, parts of rules in any order, repeated ids and names", "why_tests_cant": "Unbounded trees; the handlers share tables that are keyed by ids and names, so elements far apart can disturb each other", "anchors": ["utils/pdb2adb: init, rule, rule_pattern, example, rule_tag, rule_value, action, ruleset_pattern"]}
{"id": "C104", "title": "From a patterndb to a loaded pattern file", "statement": "For every patterndb the conversion script does one of four things. With the option for actions it stops with an exit code. Without the option for patterns it prints nothing. If examples are wanted and some rule of a ruleset with a program has examples but no pattern, it stops with an error. In all other cases it prints a document. If the ids are uuids and every pattern has a reading, then actiondb can load this document, whatever the order of rules and keys, exactly if every example of rules with a convertible pattern has values (or examples are left out), and it then holds exactly the expected patterns of the rules of the patterndb.", "quantifier": "all patterndbs, all options, all orders of rules and keys", "why_tests_cant": "A combination of an XML reader, a converter with running counters and three deserializers over unbounded input", "anchors": ["utils/pdb2adb", "src/matcher/pattern/file/deser.rs", "src/matcher/pattern/deser.rs"]}
{"id": "C105", "title": "Patterns under any sequence of calls", "statement": "A pattern made from its parts (or from a uuid alone) keeps its name, uuid, values and tags whatever is called on it. Taking tokens yields the tokens last set, from the front and in order, and then none. Taking test messages yields the test messages from the last to the first, and then none. The two do not disturb each other, nor does setting tokens disturb the test messages.", "quantifier": "all patterns and all histories of calls", "why_tests_cant": "Ranges over all sequences of calls", "anchors": ["src/matcher/pattern/pattern.rs: Pattern::new, with_uuid, set_pattern, pop_first_token, pop_test_message"]}
{"id": "C106", "title": "The values of an answer are separate pieces of the message", "statement": "Whatever a matcher of either kind holds, if parse(text) returns a result then there are pieces of text, standing one after the other without overlapping, each of them exactly what one SET, INT or GREEDY parser takes at its position, such that the values of the result are the pieces whose parser has a name, the leftmost piece winning where a name occurs more than once. Hence the values together have at most as many bytes as the text, and every value of an answer to a valid UTF-8 text is valid UTF-8.", "quantifier": "all states of either matcher (any patterns, any order, any hash function), all texts that get an answer", "why_tests_cant": "Ranges over all pattern sets, including those for which the answer is otherwise wrong, and over all messages.", "anchors": ["src/matcher/trie/node/mod.rs: SuffixTree::parse, parse_with_parsers, parse_then_push_kvpair", "src/matcher/trie/node/parser.rs: ParserNode::parse, push_last_kvpair", "src/matcher/suffix_array/impls.rs: SuffixTable::parse, ParserE::parse", "src/matcher/result.rs: MatchResult::insert"]}
{"id": "C107", "title": "From a patterndb to the answers", "statement": "If the conversion script prints a document for a patterndb (with ids that are uuids, values in all examples of rules with a convertible pattern, and readable patterns) and the file is loaded into a trie, strictly or ignoring errors, then the file can be read, every pattern that the patterndb offers is in it, and every answer of the trie comes from a pattern that the patterndb offers: the message is what this pattern stands for (after the name of the program, if asked for), the values are what its parsers take, the tags are those of the rules with its id, and the uuid of the answer is this id if it is their first pattern and a new one otherwise.", "quantifier": "all patterndbs, options, orders of rules and keys, file names with a supported extension, hash functions without a collision of the parsers that start the offered patterns, UTF-8 messages", "why_tests_cant": "Ranges over all patterndbs, all orders in which a Perl hash can be traversed and all messages.", "anchors": ["utils/pdb2adb", "src/matcher/pattern_loader.rs: from_file, from_file_ignore_errors", "src/matcher/trie/node/mod.rs: SuffixTree::parse"]}
{"id": "C108", "title": "The description of an error tells its kind", "statement": "For any two build errors made by this library (test message errors, unsupported extension, file name not UTF-8), their descriptions are equal iff the errors are of the same kind: description() neither merges two kinds nor depends on the details of an error.", "quantifier": "all pairs of errors with any uuids, keys, values, tags and messages", "why_tests_cant": "Ranges over all contents of errors", "anchors": ["src/matcher/pattern/testmessage/error.rs: Error::description", "src/matcher/pattern_source/error.rs: BuildError::description"]}
{"id": "C109", "title": "The text of an error begins with its description", "statement": "The displayed text of every build error made by this library begins with the error's description.", "quantifier": "all errors with any uuids, keys, values, tags and messages", "why_tests_cant": "Ranges over all contents of errors", "anchors": ["src/matcher/pattern/testmessage/error.rs: Error::description, Error::fmt", "src/matcher/pattern_source/error.rs: BuildError::description, BuildError::fmt"]}
{"id": "C110", "title": "An answer of the trie determines the message", "statement": "If all parsers of the patterns have names and no pattern uses a name twice, the message is the pattern of the answer with the answer's values written in the places of its parsers, and two messages whose answers have the same uuid and the same values are the same message.", "quantifier": "all lists of such patterns with UTF-8 literals, all pairs of UTF-8 messages", "why_tests_cant": "Compares the answers of all pairs of messages for all histories of additions", "anchors": ["src/matcher/trie/node/mod.rs: SuffixTree::parse, parse_then_push_kvpair", "src/matcher/result.rs: MatchResult::insert"]}
{"id": "C111", "title": "Exactly which pattern strings can match at all", "statement": "A trie that holds the pattern of an ASCII pattern string answers some ASCII message if and only if every SET or INT of it allows a non-empty value, no literal directly behind a SET or INT begins with a character of the set, no SET or INT directly behind another one has only characters of that one's set, and a GREEDY without end string is followed by nothing but further ones. A pattern string that violates this is never the answer of any trie; one that does not has an answered message in a suffix array, too. For pattern strings in any script: a trie holding the pattern answers some message if and only if these conditions hold with values made of whole characters and no literal begins with a character outside ASCII; a suffix array holding it does if and only if they hold where a literal directly behind a SET or INT may be ignored.", "quantifier": "all pattern strings that compile, all messages", "why_tests_cant": "That a pattern matches nothing is a statement about all messages, and the criterion is about all patterns", "anchors": ["src/grammar/parser/pattern_parser.rs: pattern", "src/parsers/set.rs: SetParser::parse", "src/parsers/greedy.rs: GreedyParser::parse", "src/matcher/trie/node/mod.rs: SuffixTree::parse"]}
{"id": "C112", "title": "The additional values of a pattern are part of its answers", "statement": "The values of an answer contain the additional key-value pairs of its pattern whose keys are not names of its parsers, as the documentation of pattern files says and as the check of test messages assumes.", "quantifier": "all pattern lists, messages and additional values", "why_tests_cant": "The test messages of a pattern file are checked against the merged values, so they pass although no answer ever contains the additional ones", "anchors": ["README.md: values", "src/matcher/result.rs: MatchResult::values", "src/matcher/pattern/testmessage/message.rs: TestMessage::merge_values"]}
{"id": "C113", "title": "What can be added to the end of an answered message", "statement": "If a trie that holds the pattern of an ASCII pattern string answers a message and the last part of the pattern has taken something from it, the message followed by more text is answered if and only if the last part is a GREEDY, or a SET or INT whose set contains the added characters and whose maximal length is not exceeded, or nothing was added; the added text then belongs to the last part. In a trie with any patterns, a pattern that ends with a literal never answers both a message and a longer one that begins with it. For pattern strings and messages in any script the first part holds, too, unless the last part is a SET or INT whose value for the longer message ends inside a character; then, and only then, the trie panics.", "quantifier": "all pattern strings, messages and additions; all pattern lists", "why_tests_cant": "It compares the answers for a message and for each of its infinitely many extensions", "anchors": ["src/matcher/trie/node/mod.rs: SuffixTree::parse", "src/parsers/set.rs: SetParser::parse", "src/parsers/greedy.rs: GreedyParser::parse"]}
{"id": "C114", "title": "Bounded work when adding a pattern", "statement": "Adding a pattern that begins with a literal to a trie takes a number of comparisons bounded by the length of that literal and the number of the pattern's tokens, whatever was added before; to a suffix array, a number bounded by the logarithm of the number of earlier patterns that begin with a literal. Adding a pattern that begins with a parser takes at most one comparison for each earlier pattern that begins with a parser, and in a trie one more for each of its tokens.", "quantifier": "all histories of additions and all patterns", "why_tests_cant": "It bounds the work for every history; a timing shows one", "anchors": ["src/matcher/trie/node/mod.rs: SuffixTree::insert, insert_literal, lookup_literal_mut, insert_parser", "src/matcher/suffix_array/impls.rs: SuffixTable::insert, insert_literal, insert_parser", "src/utils/sortedvec.rs: SortedVec::push"]}
{"id": "C115", "title": "Names of parsers and descriptions of patterns are only labels", "statement": "If the parsers of all patterns get other names, and the patterns other names, uuids, values, tags or test messages, every message is answered as before: by the same pattern, with the same texts captured, reported under the new names; and a run panics if it did so before. This needs only that different parsers with which patterns begin do not become equal, which is so when different names stay different; without it an answer can be lost. Descriptions alone never change an answer's values.", "quantifier": "all pattern lists, renamings, changes of descriptions and messages, in the trie and in the suffix array", "why_tests_cant": "It compares two runs for every list of patterns and every renaming", "anchors": ["src/matcher/trie/node/mod.rs: SuffixTree::insert, parse, insert_parser", "src/matcher/suffix_array/impls.rs: SuffixTable::insert, parse", "src/parsers/base.rs: ParserBase", "src/parsers/int.rs: IntParser", "src/parsers/greedy.rs: GreedyParser", "src/parsers/set.rs: SetParser"]}
{"id": "C116", "title": "A pattern of a trie is kept or lost as a whole", "statement": "Right after a pattern that begins with a literal and goes on was added to a trie, it is the answer for every message it matches, or it is the answer for no message. It is kept if no earlier pattern begins with a longer literal that begins with the new pattern's literal. It is lost if there is such an earlier pattern and no earlier pattern goes on after the new pattern's literal or after a beginning of it. In any trie, a pattern that goes on after its leading literal is the answer for every message it matches that follows no leading literal beyond the pattern's own one, or for no message at all. Once kept it stays until a pattern that goes on after its literal or after a beginning of it is added; one that goes on after the same literal replaces it for good.", "quantifier": "all pattern lists with non-empty literals in any script, all added patterns and all messages on which the run does not panic", "why_tests_cant": "It speaks about every message a pattern matches, after every history", "anchors": ["src/matcher/trie/node/mod.rs: SuffixTree::insert, insert_literal, parse", "src/matcher/trie/node/literal.rs: LiteralNode"]}
{"id": "C117", "title": "Which patterns a trie keeps when their leading literals differ", "statement": "In a trie to which no two patterns were added that go on after the same leading literal, a pattern that was added after one with a longer leading literal that begins with its own is the answer for no message. Every other pattern that goes on after a leading literal is the answer for each message it matches that follows no leading literal beyond the pattern's own one. A message that is a leading literal is answered by the last pattern that is this literal alone, and by none if there is no such pattern.", "quantifier": "all such pattern lists, with non-empty literals in any script, and all messages on which the run does not panic", "why_tests_cant": "It says for every list and every order of adding which patterns are lost", "anchors": ["src/matcher/trie/node/mod.rs: SuffixTree::insert, insert_literal, parse", "src/matcher/trie/node/literal.rs: LiteralNode"]}
{"id": "C118", "title": "Which patterns a suffix array keeps", "statement": "Once some pattern of a suffix array begins with a literal, every answer is that of a pattern that begins with a literal and is the last of its kind. There are two kinds for each leading literal: patterns that are the literal alone, and patterns that go on after it. So a pattern that begins with a parser, or one that was followed by another of its kind, is the answer for no message. The last of a kind is the answer for every message it matches with which each other leading literal has less in common, and a literal alone is always the answer for itself.", "quantifier": "all pattern lists with literals in any script, and all messages on which the run does not panic", "why_tests_cant": "It says for every list and every message which patterns can be the answer", "anchors": ["src/matcher/suffix_array/impls.rs: SuffixTable::insert, insert_literal, parse"]}
{"id": "C119", "title": "A test message shows that its pattern was not lost", "statement": "If a list of patterns is loaded into a trie with its test messages checked, and a pattern that begins with a literal and goes on has a test message, then right after it was added this pattern was the answer for every message it matches, not only for its test messages. If no later pattern goes on after its literal or after a beginning of it, or if no two patterns go on after the same leading literal, this remains so in the finished trie for all messages that follow no leading literal beyond the pattern's own one, so test messages of that form pass there too; and in the second case a list in which such a pattern comes after one with a longer leading literal that begins with its own is rejected.", "quantifier": "all lists and files of patterns with literals in any script that can be loaded, all patterns of them with a test message and all messages on which the run does not panic", "why_tests_cant": "It says what a single passing test message implies for all other messages", "anchors": ["src/matcher/pattern_source/mod.rs: from_source, check_pattern, check_test_messages", "src/matcher/trie/node/mod.rs: SuffixTree::insert, parse", "src/matcher/pattern_loader.rs: PatternLoader::from_file"]}
{"id": "C120", "title": "Every message text can be written as a pattern", "statement": "For every non-empty text there is a pattern string that matches exactly this text. The texts a pattern string can denote as one literal are exactly the non-empty ones in which the escape sequence \\%\\{ itself does not occur; the others can be written with a SET for the backslash. A matcher holding such a pattern never gives a wrong answer about any text, and it answers without a panic for the text itself and for all ASCII texts unless the text begins with a character outside ASCII. The empty text is the exception: a matcher with one pattern that answers the empty text answers every text.", "quantifier": "all texts in any script, and for the empty text all pattern strings in any script", "why_tests_cant": "It is about all texts, and that something can not be written is about all pattern strings", "anchors": ["src/grammar/parser/pattern_parser.rs: pattern", "src/grammar/mod.rs: unescape_literal", "src/matcher/trie/node/mod.rs: SuffixTree::insert, parse"]}
{"id": "C121", "title": "The hash function matters only for parsers with the same hash", "statement": "Two hash functions that give different hashes to different leading parsers of the patterns lead to the same trie and the same suffix array, so all answers are the same. With any hash function at all, both are the ones for the patterns in which each leading parser is replaced by the first leading parser with the same hash; in this list no two different parsers share a hash, and the replacement changes nothing when there is no collision. So a collision never makes the trie answer with anything but a match of one of the patterns after this replacement. The answers of the suffix array follow in the same way.", "quantifier": "all hash functions, all sequences of added patterns, all texts", "why_tests_cant": "Tests use one hash function and a few parsers, for which no collision happens; the claim is about every hash function and every set of patterns", "anchors": ["src/matcher/trie/node/mod.rs: SuffixTree::insert, lookup_parser", "src/matcher/suffix_array/impls.rs: insert", "src/parsers/int.rs: hash_os", "src/parsers/set.rs: hash_os", "src/parsers/greedy.rs: hash_os"]}
{"id": "C122", "title": "JSON and YAML pattern files with the same data are the same", "statement": "If a JSON file and a YAML file hold the same data, loading them has the same outcome: the same list of patterns, or a panic at the same place, or the same error, marked as a JSON or as a YAML error if it is about the contents. Building a matcher from them, with or without checking the test messages, gives the same matcher or the same failure. Nothing but the extension and the contents of a file counts: two files that agree in these, at any paths of any file systems, have the same outcome.", "quantifier": "all pairs of files, file systems, document contents and matcher types", "why_tests_cant": "Tests compare a JSON and a YAML file for one document; the claim is about all documents, all errors in them and all paths", "anchors": ["src/matcher/pattern_loader.rs: load_file, from_file, from_file_ignore_errors", "src/matcher/pattern_source/mod.rs: from_source", "src/matcher/pattern_source/error.rs: BuildError"]}
{"id": "C123", "title": "The order of the entries of objects in a pattern file does not matter", "statement": "Two documents that differ only in the order in which the entries of objects are given, anywhere in the document, describe the same pattern, test message or list of patterns, or none of them is accepted, and the same matcher is built from them or none. Entries with the same key must stand in the same order. A document of one pattern that makes the program panic does so in every order; which of several errors is reported may depend on the order.", "quantifier": "all documents and rearrangements of them, JSON and YAML, for all libraries that take lists, objects and strings as what they are", "why_tests_cant": "Tests have a few documents with one order of the keys; the claim is about all documents and all orders", "anchors": ["src/matcher/pattern/deser.rs: PatternVisitor::visit_map", "src/matcher/pattern/testmessage/deser.rs: TestMessageVisitor::visit_map", "src/matcher/pattern/file/deser.rs: FileVisitor::visit_map"]}
{"id": "C124", "title": "Pattern strings are the same pattern exactly when they differ in spelling only", "statement": "Two pattern strings compile to the same pattern exactly when their elements agree one by one: the same literal texts, the same kinds of parsers with the same names, SETs of the same characters in whatever order and number, and the same last min_len and max_len options. Leading zeros of numbers, spaces after commas, repeated characters and overridden options have no effect, and every other difference is kept.", "quantifier": "all pairs of pattern strings", "why_tests_cant": "Tests compare single strings with the expected pattern; the claim is about all pairs of strings, in both directions", "anchors": ["src/grammar/parser/pattern_parser.rs: pattern", "src/grammar/mod.rs: unescape_literal", "src/matcher/trie/parser_factory.rs: TrieParserFactory", "src/parsers/has_length_constraint.rs: set_min_length, set_max_length"]}
{"id": "C125", "title": "Which parsers do the same on every text, and that they can be exchanged", "statement": "Two parsers with ASCII SET arguments give the same result for every text exactly when both take runs of the same characters of the same lengths, or both can take no run at all, or both take everything up to the same end string. So INT is the SET of the digits, a min_len of 0 or 1 is no limit, and nothing else about limits, characters or end strings is without effect. Parsers with the same name that do the same can be exchanged in the patterns of either matcher: all texts get the same answers with the same values, as long as different parsers with which patterns begin are exchanged for different ones; without this condition patterns can be lost.", "quantifier": "all pairs of parsers, all texts, all lists of patterns and exchanges of parsers", "why_tests_cant": "Tests try a few parsers on a few texts; that two parsers agree is a claim about all texts, and that patterns can be rewritten is a claim about all sets of patterns", "anchors": ["src/parsers/set.rs: SetParser", "src/parsers/int.rs: IntParser", "src/parsers/greedy.rs: GreedyParser", "src/parsers/has_length_constraint.rs: is_match_length_ok", "src/matcher/trie/node/mod.rs: insert_parser, parse", "src/matcher/suffix_array/impls.rs: SuffixTable"]}
{"id": "C126", "title": "What the conversion of a patterndb leaves out or changes is reported", "statement": "Every rule, pattern and value of a patterndb that the script pdb2adb leaves out of the document it prints is reported on the error output, every parser that is only approximated too, and every rule whose test messages or programs must be checked by hand; nothing is reported without such a reason. The report about a pattern names a part of it.", "quantifier": "all patterndb files, all orders in which the script visits the rules", "why_tests_cant": "There are no tests of the script; the claim is about all patterns, among them those that count as false in Perl", "anchors": ["utils/pdb2adb: _p2p, _validate_pattern, warn"]}
{"id": "C127", "title": "Converting a patterndb again gives a matcher with the same answers", "statement": "If the script pdb2adb is run twice on the same patterndb with the same options, both documents can be loaded, the files hold the same patterns (but for the numbers in the names and the uuids that the script makes up), and the matchers loaded from them answer every message alike.", "quantifier": "all patterndb files, options, orders in which the two runs visit rules and write entries of hashes, uuids they make up, and messages", "why_tests_cant": "The order in which Perl visits a hash changes from run to run; a test sees one order", "anchors": ["utils/pdb2adb: each %rule, create", "src/matcher/trie/node/mod.rs: SuffixTree::parse_with_parsers"]}
{"id": "C128", "title": "Deleting a pattern that answers no message changes nothing", "statement": "If a pattern of a matcher is the answer for no message, then the matcher built from the list without this pattern gives the same answer for every message.", "quantifier": "all lists of patterns, all positions of the deleted pattern, all messages; both matchers", "why_tests_cant": "A test can try some messages; that a pattern answers none, and that no answer changes, are claims about all messages", "anchors": ["src/matcher/trie/node/mod.rs: SuffixTree::insert, parse", "src/matcher/suffix_array/impls.rs: insert, parse", "src/matcher/trie/matcher.rs: add_pattern"]}
{"id": "C129", "title": "The causes of an error", "statement": "Who starts at an error of the loader and goes on to its cause as long as there is one sees the same descriptions as from the error that it passes on (of the file system, the JSON or YAML parser, or the check of a test message): each once, none missing. The library's own errors are the end of the walk, and the walk ends if it ends for the errors of other libraries.", "quantifier": "all errors of the loader, all behaviours of the errors of other libraries", "why_tests_cant": "The claim is about every error and every chain of causes behind it; there are no tests of causes", "anchors": ["src/matcher/pattern_source/error.rs: cause, description", "src/matcher/pattern/testmessage/error.rs: Error"]}
{"id": "C130", "title": "A pattern means the regular expression it stands for", "statement": "Replace every SET and INT of a pattern string by [characters]{min,max} (as the README does), every GREEDY by .* and take literals as they are: a matcher holding the pattern answers a message iff this regular expression matches the whole message, and the values are its groups.", "quantifier": "all pattern strings, all messages, all ways in which the regular expression can match", "why_tests_cant": "The claim compares two languages; a regular expression may match in many ways, of which actiondb, which does not go back, tries one", "anchors": ["README.md: SET, INT, GREEDY", "src/parsers/set.rs: parse", "src/parsers/greedy.rs: parse", "src/matcher/trie/node/mod.rs: SuffixTree::parse"]}
{"id": "C131", "title": "Loosening length limits loses no message", "statement": "If minimum and maximum lengths of SET and INT parsers are relaxed or removed in a pattern set (names and characters as before), every message that was answered is still answered (unless comparing a literal with a message that is not ASCII now panics): by the same pattern with the same values, except that, where patterns begin with parsers, another such pattern which did not match the message before may come first. Adding characters to a SET has no such guarantee.", "quantifier": "all pattern sets, all looser limits, all messages, trie and suffix array", "why_tests_cant": "An upgrade of the patterns must hold for every message already handled, whatever other patterns the database has", "anchors": ["src/parsers/set.rs: parse, is_match_length_ok", "src/parsers/int.rs", "src/matcher/trie/node/mod.rs: SuffixTree::parse", "src/matcher/suffix_array/impls.rs: SuffixTable::parse"]}
{"id": "C132", "title": "Bounded call depth of cloning and dropping a matcher", "statement": "How deep the calls nest while a matcher is cloned (boxed_clone) or dropped does not depend on the number of patterns: a stack with three frames for each byte and token of the longest added pattern, and two more, is enough for the trie, three for each token and two more for the suffix array. With any stack a completed clone equals the original and a completed drop frees every node exactly once, and a matcher that can be cloned can be dropped with the same stack. A matcher holding one pattern needs exactly three frames for each of its tokens.", "quantifier": "all lists of added patterns, all stack sizes", "why_tests_cant": "A stack overflow aborts the process and shows only for patterns deeper than any test has", "anchors": ["src/matcher/trie/node/mod.rs: derive(Clone) SuffixTree", "src/matcher/trie/node/literal.rs: LiteralNode", "src/matcher/trie/node/parser.rs: Clone for ParserNode", "src/matcher/suffix_array/impls.rs: derive(Clone) SuffixTable, Clone for ParserE", "src/utils/sortedvec.rs: derive(Clone)"]}
{"id": "C133", "title": "The same text in front of all patterns and messages", "statement": "If every pattern begins with literal text, writing the same text in front of every pattern (as when a program name is added to each of them) gives a pattern set that answers each message with that text in front exactly as the old set answered the message without it: same pattern, same values, same silence. For the suffix array this includes the panics; for the trie it holds whenever neither comparison panics, in particular for all ASCII patterns and messages. Messages that do not begin with the text get no answer from the trie. Patterns beginning with a parser have no such guarantee.", "quantifier": "all lists of patterns beginning with literals, all texts in front, all messages, trie and suffix array", "why_tests_cant": "The text moves every branching point of the matcher, so the equality must be shown for every set of patterns and every message", "anchors": ["src/matcher/trie/node/mod.rs: SuffixTree::insert, SuffixTree::parse", "src/matcher/trie/node/literal.rs", "src/matcher/suffix_array/impls.rs: SuffixTable::parse"]}
{"id": "C134", "title": "Bounded work when compiling a pattern string", "statement": "Compiling a pattern string takes time linear in its length, whether it compiles, is rejected or panics: the parser compares the string with an expected text, tests a character or takes a character at most 43 times for each byte of the string and 34 times more. No pattern string makes the parser go back over what it has read again and again. A string of plain text without percent signs takes exactly two such looks for each byte and seven more.", "quantifier": "all byte strings", "why_tests_cant": "Parsers with alternatives and optional parts can need quadratic or exponential time for inputs that no test contains", "anchors": ["src/grammar/parser/pattern_parser.rs: pattern, parse_pattern, parse_pattern_piece, parse_parser_SET, parse_parser_INT, parse_parser_GREEDY, parse_parser_BASE_optional_param"]}
{"id": "C135", "title": "Answers do not depend on which characters are used", "statement": "Exchanging characters consistently in all patterns (literals, SET arguments, end strings) and in a message, different ones for different ones, changes nothing in the answers of the trie: the same pattern is reported, with the same values written with the new characters, and messages without answer stay without one. So the order of characters in the encoding, by which the trie sorts its nodes, never decides about an answer. ASCII patterns and messages; digits have to be kept because INT means them. The suffix array gives no such guarantee: there the order of the characters can decide which pattern is reported.", "quantifier": "all injective exchanges of ASCII characters that keep digits, all lists of compiled ASCII patterns, all ASCII messages", "why_tests_cant": "The sorted node lists and their binary searches come out differently for every exchange, for unboundedly many pattern sets", "anchors": ["src/matcher/trie/node/mod.rs: SuffixTree::insert, SuffixTree::parse", "src/matcher/trie/node/literal.rs: cmp_str", "src/utils/sortedvec.rs", "src/matcher/suffix_array/impls.rs: longest_common_prefix"]}
{"id": "C136", "title": "How long the messages of a pattern are", "statement": "The length of a message the trie answers with a pattern is a sum of the lengths of the pattern's literals and of lengths its parsers can take (a SET or INT at least one byte and within min_len and max_len), so a message too short or too long for every pattern has no answer. For a pattern without GREEDY that can match anything, messages of every length from the shortest to the longest of these sums occur, and no others. If there is no longest sum, because of a GREEDY or a missing max_len, such a pattern is the answer for messages longer than any bound. Answers of the suffix array are never longer than the longest sum, but can be shorter than the shortest.", "quantifier": "all lists of patterns and all messages on which the run does not panic; for the exact lengths all ASCII pattern strings without GREEDY and all lengths; for the missing bound all ASCII pattern strings", "why_tests_cant": "It must hold for every pattern and message; that nothing shorter or longer is ever answered cannot be seen from samples", "anchors": ["src/parsers/has_length_constraint.rs: is_match_length_ok", "src/parsers/set.rs: SetParser::parse", "src/matcher/trie/node/mod.rs: SuffixTree::parse", "src/matcher/suffix_array/impls.rs: SuffixTable::parse"]}
{"id": "C137", "title": "Which patterns can have a test message", "statement": "A pattern string has a test message with which it can be loaded exactly if it can match anything at all. The message can state the values of all named parsers and the tags of the pattern, and the same message serves for both matchers. So if a list of patterns is loaded into a trie with its test messages checked, every pattern with a test message can match something, and a list with a test message for a pattern that never matches is rejected.", "quantifier": "all ASCII pattern strings for the existence, all lists of patterns in any script and all test messages for the converse", "why_tests_cant": "That no test message whatever passes for a pattern, and that one exists for every other pattern, are statements about all messages", "anchors": ["src/matcher/pattern_source/mod.rs: FromPatternSource::from_source", "src/matcher/pattern/testmessage/message.rs: TestMessage::test_result"]}
{"id": "C138", "title": "The values of an answer depend only on the message and the reported pattern", "statement": "If two matchers answer for the same message with the same pattern, they give the same values, whatever other patterns each of them holds, in whatever order and with whatever hash keys, and whether they are tries or suffix arrays. The other patterns decide only whether a pattern is reported, never what is taken from the message for it.", "quantifier": "all pairs of pattern lists in which a uuid stands for one pattern, all hash functions without collisions on them, all messages, all pairs of matchers", "why_tests_cant": "It compares the answers of any two matchers for any message; the set of neighbouring patterns is unbounded", "anchors": ["src/matcher/trie/node/mod.rs: SuffixTree::parse", "src/matcher/suffix_array/impls.rs: SuffixTable::parse", "src/matcher/mod.rs: Matcher"]}
{"id": "C139", "title": "Test messages decide only whether a load succeeds", "statement": "Two lists of the same patterns with different test messages give, if both can be loaded, the same matcher. Leaving out test messages, repeating them or listing them in another order never makes a load fail, and only which messages there are decides whether it succeeds. If errors are ignored, both lists give the same matcher unless parsing a message panics. (The order can decide which error is reported.)", "quantifier": "all matcher implementations, all lists of patterns, all test messages", "why_tests_cant": "It compares the loads of all pairs of lists that differ in any number of test messages", "anchors": ["src/matcher/pattern_source/mod.rs: FromPatternSource::from_source, from_source_ignore_errors, check_pattern, extract_test_messages, check_test_messages"]}
{"id": "C140", "title": "What a matcher answers depends only on the patterns it holds", "statement": "In every program that creates, fills, asks, clones and drops any number of matchers of both kinds, in any order of calls, each answer is the one a new matcher of the same kind gives to which exactly the patterns were added that were added to this matcher (and, if it is a clone, to the original before the cloning), in the same order. What was asked before, what other matchers hold, and what became of the original or of clones, has no effect. The program panics exactly if it comes to a call for which such a new matcher panics.", "quantifier": "all sequences of calls on any number of matchers, all patterns and texts, all hash functions", "why_tests_cant": "It ranges over all histories of calls and all interleavings of calls on several matchers", "anchors": ["src/matcher/mod.rs: Matcher", "src/matcher/trie/matcher.rs: impl Matcher for SuffixTree", "src/matcher/suffix_array/impls.rs: impl Matcher for SuffixTable", "src/matcher/factory.rs: MatcherFactory"]}
{"id": "C141", "title": "How large compiled patterns and matchers get", "statement": "A pattern string compiles to at most as many tokens as it has bytes, with at most as many bytes in its literals and at most twice as many in all names, character sets, end strings and literals together; less than twice does not do, since the text after a GREEDY is stored twice. A trie built from compiled pattern strings has at most two nodes, and a suffix array at most one entry, for each byte of the strings together, and the stored literal pieces have no more bytes than the strings.", "quantifier": "all valid UTF-8 pattern strings that compile, all lists of them", "why_tests_cant": "It bounds the size for strings of every length and for every list of patterns", "anchors": ["src/grammar/parser/pattern_parser.rs: pattern", "src/matcher/trie/node/mod.rs: SuffixTree::insert", "src/matcher/suffix_array/impls.rs: SuffixTable::insert"]}
{"id": "C142", "title": "When one of two patterns of the same kind can be left out", "statement": "Call two patterns of the same kind if they begin with the same token and both or neither of them are this token alone (for instance two patterns with the same pattern string). In a suffix array, a pattern that begins with a literal can be left out if one of the same kind is added later: every text has the same outcome. In a trie, and for patterns that begin with a parser, the same holds if all patterns added between the two are ones whose order with it does not matter (C20, C100), so in particular if the two are added directly one after the other. In a trie this condition is needed, even for two patterns with the same tokens: leaving out the earlier one can lose answers of the later one, and adding the later one can lose answers of a pattern added between.", "quantifier": "all histories of additions without hash collisions, all positions of the two patterns, all UTF-8 texts; both matchers", "why_tests_cant": "It ranges over all other patterns of the matcher, all positions and all texts", "anchors": ["src/matcher/trie/node/mod.rs: SuffixTree::insert", "src/matcher/suffix_array/impls.rs: SuffixTable::insert", "src/matcher/suffix_array/interface.rs: Entry::insert"]}
{"id": "C143", "title": "Which patterns can be taken out of a pattern file", "statement": "From a pattern file that loads any number of patterns can be deleted at the beginning, and the rest loads, for every kind of matcher. Other patterns can be deleted, too, in these cases: for a suffix array, any patterns at all if the uuids are different and the patterns with test messages begin with literals; for a trie, any patterns at all if the uuids are different and no addition disturbs another one (C75). Under the same conditions texts that are answered with a remaining pattern keep their answer. The conditions are needed: without its last pattern a file can fail to load into a trie, although all patterns begin with literals, and so it can into both matchers if patterns begin with parsers.", "quantifier": "all pattern files and sources that load, all choices of the patterns that are taken out, all texts", "why_tests_cant": "It ranges over all pattern files and all parts of them", "anchors": ["src/matcher/pattern_source/mod.rs: from_source, check_pattern", "src/matcher/pattern/file/iter.rs: next", "src/matcher/trie/node/mod.rs: SuffixTree::insert, parse", "src/matcher/suffix_array/impls.rs: SuffixTable::insert, parse"]}
{"id": "C144", "title": "Programs with ASCII patterns and messages never panic", "statement": "A program that creates matchers of both kinds, adds patterns, parses, clones and drops matchers in any order runs to its end if all its patterns are compiled from ASCII pattern strings and all messages it parses are ASCII; each parse with a matcher that exists has an answer. More precisely it is enough that tries get only patterns with ASCII literals and parse only ASCII messages, and that suffix arrays get only patterns whose SETs are ASCII and parse valid UTF-8 messages. The conditions are needed: a trie can panic if two literals differ from a non-ASCII character on or if a message is not ASCII, and a suffix array can panic if it holds a non-ASCII SET.", "quantifier": "all programs: all finite sequences of calls on any number of matchers of both kinds", "why_tests_cant": "It must hold for every sequence of calls with any patterns and messages of any length", "anchors": ["src/matcher/mod.rs: Matcher", "src/matcher/trie/matcher.rs", "src/matcher/suffix_array/impls.rs: SuffixTable", "src/utils/common_prefix.rs: CommonPrefix"]}
{"id": "C145", "title": "Putting pattern files together and taking them apart by first characters", "statement": "Let all patterns begin with literals and have different uuids. Divide them by the first character of the pattern into two groups, in whatever order they stand. The trie loads all of them exactly if it loads each of the two groups, so two pattern files whose patterns begin with different characters can be put together exactly if each of them loads; and a message has the same outcome in the trie of all patterns and in the trie of the group its first character belongs to. In a suffix array a message has the same outcome in both if some pattern begins with its first character, whatever else the other patterns begin with; and loading can be divided in the same way if the test messages begin with the first characters of their patterns (the uuids do not matter). The conditions are needed: with a common first character a trie may load two patterns alone, but not together; and a suffix array may load a pattern whose test message begins differently, but not together with another one.", "quantifier": "all lists of patterns that begin with ASCII literals, all sets of first characters, all test messages, all messages", "why_tests_cant": "It compares the loading and all answers for every list of patterns and every division of it", "anchors": ["src/matcher/pattern_source/mod.rs: from_source, check_pattern", "src/matcher/trie/node/mod.rs: SuffixTree", "src/matcher/suffix_array/impls.rs: SuffixTable"]}
{"id": "C146", "title": "Patterns that begin with a literal and patterns that begin with a parser", "statement": "In a trie the order between the patterns that begin with a literal and those that begin with a parser never matters: only the order within each of the two groups does. A message that the patterns with leading literals alone would answer has this answer, whatever other patterns there are. If they would not answer it, the trie gives no answer or that of the patterns with leading parsers alone: the latter exactly if the message is no leading literal that is kept and the search stops before its first character, in particular if no pattern begins with its first character. There is no way back: a leading literal that the message begins with can keep the trie from asking the other patterns. In a suffix array that holds a pattern with a leading literal, the patterns with leading parsers do not count at all.", "quantifier": "all histories of patterns, all ways to merge the two groups, all messages", "why_tests_cant": "It compares the outcome of every message for every history and every way to merge the groups", "anchors": ["src/matcher/trie/node/mod.rs: SuffixTree::insert, parse", "src/matcher/suffix_array/impls.rs: SuffixTable::parse"]}
{"id": "C147", "title": "Only so many patterns count", "statement": "However long a history of additions is, the matcher it leads to behaves like one to which only some of these patterns were added, none of them twice: at most two patterns for each literal that patterns begin with (one that is the literal alone and one that goes on after it) and one for each parser that patterns begin with. Every message has the same outcome in both, and so it has after any further patterns have been added to both. This holds for the trie and for the suffix array, though not with the same choice of patterns. So a history whose patterns begin with m different literals and n different parsers can always be replaced by one of at most 2m + n of its patterns. Two patterns for one literal can be needed.", "quantifier": "all histories of patterns, all messages", "why_tests_cant": "It says for every history that there is a short one with the same outcome for every message", "anchors": ["src/matcher/trie/node/mod.rs: SuffixTree::insert, parse", "src/matcher/trie/node/parser.rs: ParserNode", "src/matcher/suffix_array/impls.rs: SuffixTable"]}
{"id": "C148", "title": "A pattern can be found now, or never", "statement": "After any history of additions to a trie, take a literal and the patterns that begin with it and go on. Either each such pattern is, when added now, or when added right after one of the earlier patterns has been added once more, the answer for every message it matches; or no such pattern, and none that goes on after a beginning of the literal, is ever the answer for any message, whatever patterns are added before or after it. The latter is so if a longer literal that begins with this one came before all patterns that go on after the literal or a beginning of it. The former is so if a pattern that goes on after the literal or a beginning of it is the answer for some message now: adding this one again makes way.", "quantifier": "all histories of patterns, all later additions, all literals, all patterns that go on after them, all messages on which the run does not panic", "why_tests_cant": "It speaks about all later additions to any matcher", "anchors": ["src/matcher/trie/node/mod.rs: SuffixTree::insert, insert_literal, parse", "src/matcher/trie/node/literal.rs: LiteralNode"]}
{"id": "C149", "title": "Patterns disturb one another at most in threes", "statement": "Take patterns with different uuids, one of them, and a message. If this pattern is the answer of the trie whenever it is loaded together with at most two of the others, in the same order, then it is the answer when all of them are loaded. One other pattern at a time is not enough: there are three patterns one of which is the answer beside each of the other two, but not beside both.", "quantifier": "all lists of patterns with different uuids, all members of them, all messages on which the run does not panic", "why_tests_cant": "It bounds the interference in pattern sets of every size; that is what makes testing small sets meaningful", "anchors": ["src/matcher/trie/node/mod.rs: SuffixTree::insert, insert_literal, parse", "src/matcher/trie/node/literal.rs: LiteralNode", "src/matcher/trie/node/parser.rs: ParserNode"]}
{"id": "C150", "title": "A pattern source can be tested three patterns at a time", "statement": "For the trie and ASCII patterns with different uuids and ASCII test messages: if every part of a source, or of a pattern file, with at most three patterns loads, then the whole loads. And if a test message of a pattern passes in the finished matcher of every part that consists of this pattern and at most two others, it passes in the finished matcher of all patterns. Parts with at most two patterns are not enough.", "quantifier": "all lists of patterns with different uuids, all their test messages", "why_tests_cant": "It reduces the test of sources of every size to the test of small ones", "anchors": ["src/matcher/pattern_source/mod.rs: from_source, check_pattern, check_test_messages", "src/matcher/trie/node/mod.rs: SuffixTree::insert, parse", "src/matcher/pattern/file/iter.rs: IntoIter::next"]}
{"id": "C151", "title": "Patterns disturb one another in the suffix array at most in threes", "statement": "For the suffix array and UTF-8 patterns with different uuids whose leading parsers do not collide: a pattern that begins with a literal is the answer for a text if and only if it is the answer in every matcher that holds only it and at most one of the other patterns, in the same order. Any pattern is the answer if it is the answer in every matcher that holds only it and at most two of the others. For patterns that begin with parsers one other pattern at a time is not enough.", "quantifier": "all lists of patterns with different uuids, all patterns of them, all UTF-8 texts", "why_tests_cant": "It reduces sets of patterns of every size to small ones, for every text", "anchors": ["src/matcher/suffix_array/impls.rs: SuffixTable::insert, parse"]}
{"id": "C152", "title": "A pattern source for the suffix array can be tested two patterns at a time", "statement": "For the suffix array and UTF-8 patterns with different uuids and UTF-8 test messages: if every part of a source, or of a pattern file, with at most two patterns loads, then the whole loads, without a panic. If all patterns with test messages begin with literals, the source loads exactly when all these parts load. Parts with one pattern are not enough. If a test message of a pattern passes in the finished matcher of every part that consists of this pattern and at most two others, it passes in the finished matcher of all patterns.", "quantifier": "all lists of patterns with different uuids whose leading parsers do not collide, all their test messages", "why_tests_cant": "It reduces the test of sources of every size to the test of pairs", "anchors": ["src/matcher/pattern_source/mod.rs: from_source, check_pattern, check_test_messages", "src/matcher/suffix_array/impls.rs: SuffixTable::insert, parse", "src/matcher/pattern/file/iter.rs: IntoIter::next"]}
{"id": "C153", "title": "A new pattern can be tested with few of the others", "statement": "If a source loads, a pattern with a new uuid can be appended to it, and the longer source loads, provided that the test messages of the new pattern pass when it is added after at most two of the patterns of the source (trie, ASCII), or after at most one of them (suffix array, UTF-8). With fewer of them it is not enough.", "quantifier": "all sources that load, all appended patterns and their test messages", "why_tests_cant": "It says how few combinations a test has to try, for sources of every size", "anchors": ["src/matcher/pattern_source/mod.rs: from_source, check_pattern, check_test_messages", "src/matcher/trie/node/mod.rs: SuffixTree::insert, parse", "src/matcher/suffix_array/impls.rs: SuffixTable::insert, parse"]}
{"id": "C154", "title": "Panics of the trie come from at most three patterns", "statement": "For patterns and texts in any script: if every three patterns of a list can be added to an empty trie without a panic, the whole list can. If no trie of at most two of the patterns panics for a text, the trie of all of them does not. Hence, if no part of at most three patterns panics for a text, and every such part with a certain pattern answers with it, then so does the trie of all patterns. Fewer patterns at a time are not enough.", "quantifier": "all lists of patterns with UTF-8 literals, all UTF-8 texts", "why_tests_cant": "It says how few combinations a test has to try to exclude panics, for lists of every size", "anchors": ["src/matcher/trie/node/mod.rs: SuffixTree::insert, parse", "src/matcher/trie/node/literal.rs: LiteralNode", "src/utils/common_prefix.rs: CommonPrefix", "src/utils/sortedvec.rs: SortedVec"]}
{"id": "C155", "title": "A source in any script can be tested three patterns at a time", "statement": "For patterns and test messages in any script: a source for the trie matcher loads, without a panic, if every part of it with at most three patterns does. A pattern with a new uuid can be appended to a source that loads if its test messages pass when it is added after at most two of the patterns. If a pattern is the answer for a text after any two of the patterns, it is the answer after all of them. Two patterns at a time are not enough, even to exclude a panic.", "quantifier": "all sources of patterns with UTF-8 literals and different uuids, all UTF-8 test messages and texts", "why_tests_cant": "It says how few combinations a test has to try, for sources of every size", "anchors": ["src/matcher/pattern_source/mod.rs: from_source, check_pattern, check_test_messages", "src/matcher/trie/node/mod.rs: SuffixTree::insert, parse", "src/utils/common_prefix.rs: CommonPrefix"]}
{"id": "C156", "title": "Two others at a time exclude a panic for a text", "statement": "For patterns and texts in any script: if a pattern is the answer of the trie for a text whenever it is loaded with at most two of the other patterns, then the trie of all patterns, if it could be made, does not panic for this text and answers with this pattern. The same for test messages in the finished matcher. One other pattern at a time is not enough: the whole can panic.", "quantifier": "all lists of patterns with UTF-8 literals and different uuids that can be added, all their patterns, all UTF-8 texts", "why_tests_cant": "It says how few combinations a test has to try, for lists of every size", "anchors": ["src/matcher/trie/node/mod.rs: SuffixTree::insert, parse", "src/matcher/pattern_source/mod.rs: from_source, check_pattern, check_test_messages"]}
{"id": "C157", "title": "Failing sources reduce to few patterns", "statement": "Take a source that does not load (it is refused or it panics), but each smaller part of which loads. For the trie it has at most three patterns, for the suffix array at most two. Every source that does not load contains such a part. The same, with three, for patterns whose trie panics for a text. These sizes occur.", "quantifier": "all sources of patterns with UTF-8 literals and different uuids, and UTF-8 test messages; all UTF-8 texts", "why_tests_cant": "It bounds the size of counterexamples for sources of every size", "anchors": ["src/matcher/pattern_source/mod.rs: from_source, check_pattern, check_test_messages", "src/matcher/trie/node/mod.rs: SuffixTree::insert, parse", "src/matcher/suffix_array/impls.rs: SuffixTable::insert, parse"]}
{"id": "C158", "title": "When characters outside ASCII are harmless in the trie", "statement": "Suppose no pattern begins with a literal whose first character is outside ASCII, and wherever the leading literals of two patterns part, neither goes on with a character outside ASCII. Then all patterns can be added to the trie; in particular if all leading literals are ASCII. Suppose also that a text, where it leaves a leading literal before its end, does not go on with a character outside ASCII, and that the trie of each single pattern does not panic for it. Then the trie of all patterns does not panic for this text. None of the conditions on literals and text can be dropped, and they are not necessary.", "quantifier": "all lists of patterns with UTF-8 literals; all UTF-8 texts", "why_tests_cant": "It excludes panics for pattern files of every size and all texts from a comparison of two literals at a time", "anchors": ["src/matcher/trie/node/mod.rs: SuffixTree::insert, parse", "src/matcher/trie/node/literal.rs: LiteralNode", "src/utils/common_prefix.rs: common_prefix_len"]}
