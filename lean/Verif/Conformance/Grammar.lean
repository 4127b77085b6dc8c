import Verif.Model.Grammar
import Verif.Model.ParserApi
import Verif.Rust.SipHash
/-! The unit tests of /repo/src/grammar/test.rs, run on the model.  These are tests of the model, not proofs: they show that the model gives the
results the authors of the code expect. -/
namespace Verif.Conformance

/-- `pattern(..).ok().unwrap()` succeeds and the result has the property. -/
def compiles (s : Bytes) (p : List Token → Bool) : Bool :=
  match compile s with
  | .ok (.ok toks) => p toks
  | _ => false

/-- `pattern(..).err().unwrap()` succeeds. -/
def fails (s : Bytes) : Bool :=
  match compile s with
  | .ok (.error _) => true
  | _ => false

/-- `assert_parser_name_equals` -/
def parserNamed (tok : Option Token) (name : Option Bytes) : Bool :=
  match tok with
  | some (.parser p) => p.name == name
  | _ => false

/-- `assert_parser_equals` -/
def parserIs (tok : Option Token) (expected : Parser) : Bool :=
  match tok with
  | some (.parser p) => p.hashOs Rust.sipHasher == expected.hashOs Rust.sipHasher
  | _ => false

/-- `assert_literal_equals` -/
def literalIs (tok : Option Token) (expected : Bytes) : Bool :=
  match tok with
  | some (.literal l) => l == expected
  | _ => false

-- test_given_parser_as_a_string_when_it_is_parsed_then_we_get_the_instantiated_parser
example : compiles b!"%{INT:test_name}" (fun v => v.length == 1 && parserNamed v[0]? (some b!"test_name")) = true := by decide +kernel

-- test_given_parser_as_a_string_when_its_name_is_invalid_then_we_dont_get_the_instantiated_parser
example : [b!"%{INT:test$name}", b!"%{INT:test-name}", b!"%{INT:-", b!"%{INT:"].all fails = true := by decide +kernel

-- test_given_parser_as_a_string_when_its_name_is_valid_then_we_get_the_instantiated_parser
example : [b!"%{INT:test_name}", b!"%{INT:test}", b!"%{INT:TEST_NAME_}", b!"%{INT:_}"].all (compiles · fun _ => true) = true := by decide +kernel

-- test_given_parser_as_a_string_when_its_type_isnt_exist_then_we_get_an_error
example : fails b!"%{INVALID:test_name}" = true := by decide +kernel

-- test_given_literal_as_a_string_when_it_is_parsed_then_we_stop_at_the_parsers_begin
example : compiles b!"foo " (fun v => v.length == 1 && literalIs v[0]? b!"foo ") = true := by decide +kernel

-- test_given_pattern_as_a_string_when_it_is_parsed_with_the_grammar_we_got_the_right_compiled_pattern
example : compiles b!"foo %{INT:int_0} bar %{INT:int_1}%{INT:int_2} baz" (fun v => v.length == 6 && literalIs v[0]? b!"foo " &&
    parserNamed v[1]? (some b!"int_0") && literalIs v[2]? b!" bar " && parserNamed v[3]? (some b!"int_1") &&
    parserNamed v[4]? (some b!"int_2") && literalIs v[5]? b!" baz") = true := by decide +kernel

-- test_given_invalid_string_when_we_parse_it_then_the_parser_returns_with_error
example : fails b!"foo %{INT:int_0 baz" = true := by decide +kernel

-- test_given_string_which_contains_escaped_chars_when_we_parse_it_then_we_get_the_right_string
example : compiles b!"foo \\%\\{ %{INT:test_name} baz" (fun v => v.length == 3 && literalIs v[0]? b!"foo %{ " &&
    parserNamed v[1]? (some b!"test_name") && literalIs v[2]? b!" baz") = true := by decide +kernel

-- test_given_set_parser_with_character_set_parameter_when_we_parse_it_then_we_get_the_right_parser
example : compiles b!"%{SET(\"0123456789\"):test_set}" (fun v => v.length == 1 &&
    parserIs v[0]? (.set (SetParser.new (some b!"test_set") b!"0123456789"))) = true := by decide +kernel

-- test_given_set_parser_with_optional_parameters_when_we_parse_it_then_we_get_the_right_parser
example : compiles b!"%{SET(\"0123456789\",min_len=2, max_len=5):test_set}" (fun v => v.length == 1 &&
    parserIs v[0]? (.set (((SetParser.new (some b!"test_set") b!"0123456789").setMinLength (some 2)).setMaxLength (some 5)))) = true := by decide +kernel

-- test_given_int_parser_with_optional_parameters_when_we_parse_it_then_we_get_the_right_parser
example : compiles b!"%{INT(min_len=2,max_len=5):test_int}" (fun v => v.length == 1 &&
    parserIs v[0]? (.int (((intDelegate (some b!"test_int")).setMinLength (some 2)).setMaxLength (some 5)))) = true := by decide +kernel

-- test_given_greedy_parser_when_we_parse_it_then_we_get_the_right_result
example : compiles b!"foo %{INT:int_0} bar %{GREEDY:greedy} baz" (fun v => v.length == 5 && literalIs v[0]? b!"foo " &&
    parserNamed v[1]? (some b!"int_0") && literalIs v[2]? b!" bar " && parserNamed v[3]? (some b!"greedy") && literalIs v[4]? b!" baz" &&
    parserIs v[3]? (.greedy (GreedyParser.fromStr b!"greedy" b!" baz"))) = true := by decide +kernel

-- test_given_greedy_parser_when_there_is_no_literal_after_it_then_we_take_all_the_remaining_intput_as_matching
example : compiles b!"bar %{GREEDY:greedy}" (fun v => match v[1]? with
    | some (Token.parser p) => p.name == some b!"greedy" && decide (p.parse b!"the quick brown fox" = .ok (some b!"the quick brown fox"))
    | _ => false) = true := by decide +kernel

-- test_given_parser_when_there_is_a_dot_in_its_name_then_it_is_ok
example : compiles b!"bar %{GREEDY:.some.dotted_notation}" (fun v => parserNamed v[1]? (some b!".some.dotted_notation")) = true := by decide +kernel

-- test_given_invalid_pattern_as_a_string_when_we_parse_them_then_we_get_error
example : fails b!"Jun %{INT:day %{INT:hour}:%{INT:min}:%{INT:sec}" = true := by decide +kernel

-- test_given_valid_pattern_when_it_contains_cr_character_then_we_can_parse_it
example : compiles b!"foo %{INT:int_0} \n bar %{INT:int_1}" (fun v => v.length == 4 && literalIs v[0]? b!"foo " &&
    parserNamed v[1]? (some b!"int_0") && literalIs v[2]? b!" \n bar " && parserNamed v[3]? (some b!"int_1")) = true := by decide +kernel

-- test_given_valid_pattern_when_it_does_not_have_a_name_then_we_can_parse_the_pattern
example : compiles b!"%{INT}" (fun v => v.length == 1 && parserNamed v[0]? none) = true := by decide +kernel

end Verif.Conformance
