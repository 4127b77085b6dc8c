import Verif.Model.SuffixTable
import Verif.Model.Trie
import Verif.Model.Grammar
import Verif.Model.ParserApi
import Verif.Spec.Samples
/-! The unit tests of /repo/src/matcher/trie/node/mod.rs and of /repo/src/matcher/suffix_array/test.rs, run on the model.  These are tests of the model, not proofs: they show that the model gives the
results the authors of the code expect. -/
namespace Verif.Conformance

/-- `insert_literal`, the returned node being dropped. -/
def literals (l : List Bytes) : M SuffixTree := l.foldlM (fun t s => t.insertLiteral s .ok) SuffixTree.new

/-- `node.lookup_literal(s).is_ok()` -/
def looksUp (t : M SuffixTree) (s : Bytes) : Option Bool :=
  match t with
  | .error _ => none
  | .ok t =>
    match t.lookupLiteral s with
    | .ok (.ok _ _) => some true
    | .ok (.err _ _) => some false
    | .error _ => none

/-- `node.lookup_literal(s).ok().unwrap().0.literal_children.len()` -/
def siblings (t : M SuffixTree) (s : Bytes) : Option Nat :=
  match t with
  | .error _ => none
  | .ok t =>
    match t.lookupLiteral s with
    | .ok (.ok n _) => some n.literalChildren.length
    | _ => none

/-- `node.literal_children.len()` -/
def children (t : M SuffixTree) : Option Nat :=
  match t with
  | .error _ => none
  | .ok t => some t.literalChildren.length

/-! /repo/src/matcher/trie/node/mod.rs -/

-- given_empty_trie_when_literals_are_inserted_then_they_can_be_looked_up
example : looksUp (literals [b!"alma"]) b!"alma" = some true ∧ looksUp (literals [b!"alma"]) b!"alm" = some false ∧
    looksUp (literals [b!"alma", b!"alm"]) b!"alm" = some true ∧ children (literals [b!"alma", b!"alm"]) = some 1 := by decide +kernel

-- test_given_empty_trie_when_literals_are_inserted_the_child_counts_are_right
example : children (literals [b!"alma", b!"alm"]) = some 1 ∧ looksUp (literals [b!"alma", b!"alm"]) b!"alma" = some true ∧
    siblings (literals [b!"alma", b!"alm"]) b!"alm" = some 2 := by decide +kernel

-- test_given_empty_trie_when_literals_are_inserted_the_nodes_are_split_on_the_right_place
example : children (literals [b!"alm", b!"alma", b!"ai"]) = some 1 ∧ looksUp (literals [b!"alm", b!"alma", b!"ai"]) b!"alma" = some true ∧
    siblings (literals [b!"alm", b!"alma", b!"ai"]) b!"alm" = some 2 ∧ siblings (literals [b!"alm", b!"alma", b!"ai"]) b!"ai" = some 2 := by
  decide +kernel

-- test_given_trie_when_literals_are_looked_up_then_the_edges_in_the_trie_are_not_counted_as_literals
example : looksUp (literals [b!"alm", b!"ala"]) b!"al" = some false := by decide +kernel

/-- `insert_parser`, the returned node being dropped. -/
def parserCount (l : List Parser) : Option Nat :=
  match l.foldlM (fun t p => SuffixTree.insertParser Samples.sip t p .ok) SuffixTree.new with
  | .ok t => some t.parserChildren.length
  | .error _ => none

-- test_given_node_when_the_same_parsers_are_inserted_then_they_are_merged_into_one_parsernode
example : parserCount [Samples.set b!"test" b!"ab", Samples.set b!"test" b!"ab"] = some 1 := by decide +kernel

-- test_given_node_when_different_parsers_are_inserted_then_they_are_not_merged
example : parserCount [Samples.set b!"test" b!"ab", Samples.set b!"test" b!"a"] = some 2 := by decide +kernel

/-- The values the trie of these patterns finds in the text (`none` for no match). -/
def trie (toks : List (List Token)) (text : Bytes) : M (Option BMap) := do
  let t ← SuffixTree.build Samples.sip (toks.mapIdx Samples.pat)
  let r ← t.parse text
  pure (r.map (·.values))

/-- The values the suffix array of these patterns finds in the text. -/
def table (toks : List (List Token)) (text : Bytes) : M (Option BMap) := do
  let t ← SuffixTable.build Samples.sip (toks.mapIdx Samples.pat)
  let r ← t.parse text
  pure (r.map (·.values))

/-- `create_parser_trie` -/
def simple : List (List Token) :=
  [[.literal b!"app", .parser (Samples.set b!"test" b!"01234"), .literal b!"le"], [.literal b!"appletree"], [.literal b!"apple"]]

-- test_given_parser_trie_when_some_patterns_are_inserted_then_texts_can_be_parsed
example : trie simple b!"bamboo" = .ok none ∧ trie simple b!"app42le" = .ok (some [(b!"test", b!"42")]) := by decide +kernel

-- test_given_parser_trie_when_some_patterns_are_inserted_then_fully_matching_literals_are_returned_as_empty_vectors
example : trie simple b!"appletree" = .ok (some []) := by decide +kernel

-- test_given_parser_trie_when_some_patterns_are_inserted_then_literal_matches_have_precedence_over_parser_matches
example : trie simple b!"apple" = .ok (some []) := by decide +kernel

/-- `create_complex_parser_trie` and `create_populated_suffix_table` -/
def complex : List (List Token) :=
  [[.literal b!"app", .parser (Samples.set b!"middle" b!"01234"), .literal b!"letree", .parser (Samples.set b!"end" b!"012")],
   [.literal b!"app", .parser (Samples.set b!"middle" b!"01234"), .literal b!"letree", .parser (Samples.set b!"end" b!"0123")],
   [.literal b!"bamboo"], [.literal b!"bamba"]]

-- test_given_parser_trie_when_a_parser_is_not_matched_then_the_parser_stack_is_unwind_so_an_untried_parser_is_tried
example : trie complex b!"app42letree123" = .ok (some [(b!"end", b!"123"), (b!"middle", b!"42")]) := by decide +kernel

-- test_given_parser_trie_when_the_to_be_parsed_literal_is_not_matched_then_the_parse_result_is_none
example : trie complex b!"lorem ipsum" = .ok none := by decide +kernel

-- test_given_parser_trie_when_the_to_be_parsed_literal_is_a_prefix_in_the_tree_then_the_parse_result_is_none
example : trie complex b!"bamb" = .ok none := by decide +kernel

-- test_given_empty_parser_node_when_it_is_used_for_parsing_then_it_returns_none
example : trie [] b!"bamb" = .ok none ∧ trie [] b!"" = .ok none := by decide +kernel

-- test_given_node_when_the_message_is_too_short_we_do_not_try_to_unwrap_a_childs_pattern
def short : List (List Token) :=
  [[.literal b!"app", .parser (Samples.set b!"middle" b!"01234"), .literal b!"x", .parser (Samples.set b!"space" b!" ")]]
example : trie short b!"app12x" = .ok none ∧ trie short b!"app12x " = .ok (some [(b!"middle", b!"12"), (b!"space", b!" ")]) := by decide +kernel

-- test_given_patterns_when_inserted_into_the_prefix_tree_then_the_proper_tree_is_built
example : ((SuffixTree.build Samples.sip ((simple.take 2).mapIdx Samples.pat)).map fun _ => true) = .ok true := by decide +kernel

-- test_given_pattern_when_inserted_into_the_parser_tree_then_the_pattern_is_stored_in_the_leaf
example : trie (simple.take 1) b!"app23le" = .ok (some [(b!"test", b!"23")]) := by decide +kernel

-- test_given_pattern_with_two_neighbouring_parser_when_the_pattern_is_inserted_into_the_trie_then_everything_is_ok
example : trie [[.literal b!"app", .parser (Samples.set b!"test" b!"abcd"), .parser (Samples.int b!"test2"), .parser (Samples.greedy b!"test3" none)]]
    b!"appccc12le" = .ok (some [(b!"test", b!"ccc"), (b!"test2", b!"12"), (b!"test3", b!"le")]) := by decide +kernel

/-! /repo/src/matcher/suffix_array/test.rs -/

-- test_given_parser_trie_when_a_parser_is_not_matched_then_the_parser_stack_is_unwind_so_an_untried_parser_is_tried
example : table complex b!"app42letree123" = .ok (some [(b!"end", b!"123"), (b!"middle", b!"42")]) := by decide +kernel

-- test_given_suffix_array_when_a_parser_entry_is_inserted_it_is_only_added_if_it_is_a_new_parser
example : table [[.parser (.int (intDelegate none))], [.parser (.int (intDelegate none))]] b!"42" = .ok (some []) := by decide +kernel

-- test_given_suffix_array_when_there_is_no_match_then_the_parsing_is_unsuccessful,
-- test_given_suffix_array_when_the_match_is_too_short_then_we_dont_panic
example : table [[.literal b!"app", .parser (.int (intDelegate none))]] b!"XYZ" = .ok none := by decide +kernel

-- test_given_suffix_array_when_during_parsing_the_parsed_value_is_not_empty_but_we_cant_go_forward_then_the_parsing_is_unsuccessful
example : table [[.literal b!"app"]] b!"apple" = .ok none := by decide +kernel

-- test_given_suffix_array_when_a_literal_entry_is_found_then_it_is_returned
example : table [[.literal b!"app"]] b!"app" = .ok (some []) := by decide +kernel

-- test_given_suffix_array_when_literals_are_inserted_then_it_can_find_the_string_with_the_longest_common_prefix
example : (match SuffixTable.build Samples.sip [Samples.pat 0 [.literal b!"app"]] with
    | .ok t => (match t.longestCommonPrefix b!"app42" with | .ok (some e) => some e.literal | _ => none)
    | .error _ => none) = some b!"app" := by decide +kernel

-- test_given_parser_when_it_receives_utf_8_strings_then_it_does_not_panic
example : (match compile b!"%{GREEDY}¡%{GREEDY}" with
    | .ok (.ok toks) => some (table [toks] b!"micek ¡micek")
    | _ => none) = some (.ok (some [])) := by decide +kernel

end Verif.Conformance
