import Verif.Model.ParserApi
import Verif.Model.Pattern
import Verif.Rust.SipHash
/-! The unit tests of /repo/src/parsers and of /repo/src/matcher/result.rs, run on the model.  These are tests of the model, not proofs: they show that the model gives the
results the authors of the code expect. -/
namespace Verif.Conformance

/-- `SetParser::from_str` -/
def setP (name set : Bytes) : SetParser := SetParser.new (some name) set

/-! /repo/src/parsers/set.rs -/

-- test_given_empty_string_when_parsed_it_wont_match
example : (setP b!"test" b!"").parse b!"almafa" = .ok none := by decide +kernel
-- test_given_not_matching_string_when_parsed_it_wont_match
example : (setP b!"test" b!"123").parse b!"almafa" = .ok none := by decide +kernel
-- test_given_matching_string_when_parsed_it_matches
example : (setP b!"name" b!"0123").parse b!"11230almafa" = .ok (some b!"11230") := by decide +kernel
-- test_given_minimum_match_length_when_a_match_is_shorter_it_doesnt_count_as_a_match
example : ((setP b!"test" b!"0123").setMinLength (some 7)).parse b!"11230almafa" = .ok none := by decide +kernel
-- test_given_maximum_match_length_when_a_match_is_longer_it_doesnt_count_as_a_match
example : ((setP b!"name" b!"0123").setMaxLength (some 3)).parse b!"11230almafa" = .ok none := by decide +kernel
-- test_given_minimum_and_maximum_match_length_when_a_proper_length_match_occures_it_counts_as_a_match
example : (((setP b!"testname" b!"0123").setMinLength (some 3)).setMaxLength (some 7)).parse b!"11230almafa" = .ok (some b!"11230") := by decide +kernel
-- test_given_set_parser_and_when_differently_parametrized_instances_are_hashed_then_the_hashes_are_different
example : (Parser.set (setP b!"test" b!"0123")).hashOs Rust.sipHasher ≠ (Parser.set (setP b!"test" b!"01234")).hashOs Rust.sipHasher := by decide +kernel

/-! /repo/src/parsers/int.rs -/

def intP : SetParser := intDelegate (some b!"test_int_parser")

-- test_given_int_parser_when_the_match_is_empty_then_the_result_isnt_successful
example : (Parser.int intP).parse b!"" = .ok none ∧ (Parser.int intP).parse b!"asdf" = .ok none := by decide +kernel
-- test_given_matching_string_when_it_is_parsed_then_it_matches
example : (Parser.int intP).parse b!"1234asd" = .ok (some b!"1234") ∧ (Parser.int intP).name = some b!"test_int_parser" := by decide +kernel
-- test_given_matching_string_which_is_longer_than_the_max_match_length_when_it_is_parsed_then_it_does_not_match
example : (Parser.int (intP.setMaxLength (some 3))).parse b!"1234asd" = .ok none := by decide +kernel

/-! /repo/src/parsers/greedy.rs -/

-- test_given_greedy_parser_when_the_end_string_is_not_found_in_the_value_then_the_parser_doesnt_match
example : (GreedyParser.fromStr b!"name" b!"foo").parse b!"qux baz bar" = .ok none := by decide +kernel
-- test_given_greedy_parser_when_the_end_string_is_found_in_the_value_then_the_parser_matches
example : (GreedyParser.fromStr b!"name" b!"foo").parse b!"qux foo bar" = .ok (some b!"qux ") := by decide +kernel

/-! /repo/src/parsers/has_length_constraint.rs (the implementation of the trait by `SetParser`) -/

-- test_given_parser_when_the_match_length_is_not_constrained_then_the_match_length_is_ok_in_every_case
example : [42, 1].map (SetParser.new none b!"").isMatchLengthOk = [true, true] := by decide +kernel
-- test_given_parser_when_the_minimum_match_length_is_set_then_the_shorter_matches_are_discarded
example : [42, 1, 9, 10].map ((SetParser.new none b!"").setMinLength (some 10)).isMatchLengthOk = [true, false, false, true] := by decide +kernel
-- test_given_parser_when_the_maximum_match_length_is_set_then_the_longer_matches_are_discarded
example : [42, 1, 9, 10].map ((SetParser.new none b!"").setMaxLength (some 10)).isMatchLengthOk = [false, true, true, true] := by decide +kernel

/-! /repo/src/matcher/result.rs -/

-- test_given_match_result_when_a_parse_result_is_inserted_then_we_use_only_the_ones_where_the_parser_has_a_name
example : ((((MatchResult.new (Pattern.withUuid 0)).insert (.int (intDelegate none)) b!"a").insert (.int (intDelegate none)) b!"b").insert
    (.int (intDelegate (some b!"name"))) b!"c").values = [(b!"name", b!"c")] := by decide +kernel

end Verif.Conformance
